import Verif.Inplace.Spec
set_option linter.unusedSectionVars false
namespace Verif.Inplace

section
variable {α : Type}

/-- A vector that holds the sequence `l`. -/
structure Rep (cap : Nat) (v : Vec α) (l : List α) : Prop where
  size : v.size = min cap l.length
  cells : v.cells = (l.take cap).map some ++ List.replicate (cap - l.length) none
  dyn : v.dyn = l.drop cap

theorem rep_fresh (cap : Nat) : Rep cap (fresh cap : Vec α) [] := ⟨by simp [fresh], by simp [fresh], by simp [fresh]⟩

theorem Rep.cells_length {cap : Nat} {v : Vec α} {l : List α} (h : Rep cap v l) : v.cells.length = cap := by
  rw [h.cells]; simp; omega

theorem Rep.length {cap : Nat} {v : Vec α} {l : List α} (h : Rep cap v l) : length v = l.length := by
  unfold Inplace.length; rw [h.size, h.dyn, List.length_drop]; omega

theorem Rep.ref {cap : Nat} {v : Vec α} {l : List α} (h : Rep cap v l) {i : Nat} (hi : i < v.size) : ref v.cells i = l[i]? := by
  have hs := h.size
  unfold Inplace.ref
  rw [h.cells, List.getElem?_append_left (by simp; omega), List.getElem?_map, List.getElem?_take_of_lt (by omega)]
  cases hl : l[i]? with
  | none => rfl
  | some x => rfl

theorem rep_push {cap : Nat} {v : Vec α} {l : List α} (h : Rep cap v l) (x : α) : ∃ v', pushBack v x = some v' ∧ Rep cap v' (l ++ [x]) := by
  have hs := h.size
  unfold pushBack
  rw [h.cells_length]
  by_cases hlt : v.size < cap
  · have hll : v.size = l.length := by omega
    have htake : l.take cap = l := List.take_of_length_le (by omega)
    have hcell : v.cells[v.size]? = some none := by
      rw [h.cells, htake, List.getElem?_append_right (by simp; omega), hll, List.length_map, Nat.sub_self, List.getElem?_replicate, if_pos (by omega)]
    rw [if_pos hlt]
    refine ⟨⟨v.size + 1, v.dyn, v.cells.set v.size (some x)⟩, by simp [ctor, hcell], ?_⟩
    refine ⟨?_, ?_, ?_⟩
    · simp; omega
    · simp only [h.cells]
      rw [htake, List.take_of_length_le (by simp; omega), List.set_append_right _ _ (by simp; omega)]
      rw [show cap - l.length = (cap - (l ++ [x]).length) + 1 by simp; omega, List.replicate_succ]
      simp [hll]
    · simp only [h.dyn]
      rw [List.drop_eq_nil_of_le (by omega), List.drop_eq_nil_of_le (by simp; omega)]
  · rw [if_neg hlt]
    refine ⟨_, rfl, ?_, ?_, ?_⟩
    · simp; omega
    · simp only [h.cells]
      rw [List.take_append_of_le_length (by omega)]
      simp; omega
    · simp only [h.dyn]
      rw [List.drop_append_of_le_length (by omega)]

theorem at_spec {cap : Nat} {v : Vec α} {l : List α} (h : Rep cap v l) (i : Nat) : at' v i = some (l[i]?) := by
  have hs := h.size
  unfold at'
  rw [h.length]
  split
  · rename_i hi
    have hx : l[i]? = some l[i] := List.getElem?_eq_getElem hi
    split
    · rename_i hlt
      rw [h.ref hlt, hx]; rfl
    · rename_i hge
      rw [h.dyn, List.getElem?_drop, show cap + (i - v.size) = i by omega, hx]; rfl
  · rename_i hi
    rw [List.getElem?_eq_none (by omega)]

theorem setAt_spec {cap : Nat} {v : Vec α} {l : List α} (h : Rep cap v l) (i : Nat) (x : α) :
    (i < l.length ∧ ∃ v', setAt v i x = some (v', true) ∧ Rep cap v' (l.set i x)) ∨ (¬ i < l.length ∧ setAt v i x = some (v, false)) := by
  have hs := h.size
  unfold setAt
  rw [h.length]
  by_cases hi : i < l.length
  · left
    have hx : l[i]? = some l[i] := List.getElem?_eq_getElem hi
    refine ⟨hi, ?_⟩
    rw [if_pos hi]
    by_cases hlt : i < v.size
    · rw [if_pos hlt, h.ref hlt, hx]
      refine ⟨_, rfl, ?_, ?_, ?_⟩
      · simpa using hs
      · simp only [h.cells]
        rw [List.set_append_left _ _ (by simp; omega), List.take_set, List.map_set, List.length_set]
      · simp only [h.dyn]
        rw [List.drop_set_of_lt (by omega)]
    · rw [if_neg hlt, h.dyn, List.getElem?_drop, show cap + (i - v.size) = i by omega, hx]
      refine ⟨_, rfl, ?_, ?_, ?_⟩
      · simpa using hs
      · simp only [h.cells]
        rw [List.take_set_of_le (by omega), List.length_set]
      · simp only [h.dyn]
        rw [List.drop_set, if_neg (by omega)]
        congr 1; omega
  · right
    exact ⟨hi, if_neg hi⟩

theorem iterate_spec {cap : Nat} {v : Vec α} {l : List α} (h : Rep cap v l) : iterate v = some (l.map some) := by
  unfold iterate
  rw [h.length]
  have gen : ∀ is : List Nat, is.mapM (at' v) = some (is.map (fun i => l[i]?)) := by
    intro is
    induction is with
    | nil => rfl
    | cons i is ih => rw [List.mapM_cons, at_spec h, ih]; rfl
  rw [gen]
  congr 1
  apply List.ext_getElem?
  intro n
  rw [List.getElem?_map, List.getElem?_map]
  by_cases hn : n < l.length
  · rw [List.getElem?_range hn, List.getElem?_eq_getElem hn]; simp [List.getElem?_eq_getElem hn]
  · rw [List.getElem?_eq_none (by simp; omega), List.getElem?_eq_none (by omega)]; rfl

theorem dtorLoop_spec : ∀ (n : Nat) (pre : Nat) (l : List α) (rest : List (Option α)), n = l.length →
    dtorLoop (List.replicate pre none ++ (l.map some ++ rest)) pre n = some (List.replicate (pre + n) none ++ rest)
  | 0, pre, l, rest, hn => by
    have : l = [] := List.length_eq_zero_iff.mp hn.symm
    subst this; simp [dtorLoop]
  | n + 1, pre, l, rest, hn => by
    cases l with
    | nil => simp at hn
    | cons x l =>
      simp only [dtorLoop]
      have hg : (List.replicate pre (none : Option α) ++ ((x :: l).map some ++ rest))[pre]? = some (some x) := by
        rw [List.getElem?_append_right (by simp)]; simp
      rw [hg]
      simp only
      have hset : (List.replicate pre (none : Option α) ++ ((x :: l).map some ++ rest)).set pre none =
          List.replicate (pre + 1) none ++ (l.map some ++ rest) := by
        rw [List.set_append_right _ _ (by simp), List.replicate_succ']
        simp
      rw [hset, dtorLoop_spec n (pre + 1) l rest (by simpa using hn)]
      rw [show pre + 1 + n = pre + (n + 1) by omega]

theorem dtor_spec {cap : Nat} {v : Vec α} {l : List α} (h : Rep cap v l) : dtor v = some ⟨0, v.dyn, List.replicate cap none⟩ := by
  have hs := h.size
  unfold dtor
  have := dtorLoop_spec v.size 0 (l.take cap) (List.replicate (cap - l.length) none) (by rw [List.length_take]; omega)
  rw [h.cells]
  simp only [List.replicate_zero, List.nil_append, Nat.zero_add] at this
  rw [this, List.replicate_append_replicate, show v.size + (cap - l.length) = cap by omega]
  rfl

theorem clear_spec {cap : Nat} {v : Vec α} {l : List α} (h : Rep cap v l) : clear v = some (fresh cap) := by
  unfold clear dtor
  have := dtor_spec h
  unfold dtor at this
  obtain ⟨c, hc, he⟩ := Option.map_eq_some_iff.mp this
  rw [hc]
  simp only [Vec.mk.injEq, true_and] at he
  simp only [Option.map_some, he]; rfl

theorem pushAll_spec {cap : Nat} : ∀ (xs : List α) {v : Vec α} {l : List α}, Rep cap v l → ∃ v', pushAll v xs = some v' ∧ Rep cap v' (l ++ xs)
  | [], v, l, h => ⟨v, rfl, by simpa using h⟩
  | x :: xs, v, l, h => by
    obtain ⟨v1, h1, h2⟩ := rep_push h x
    obtain ⟨v2, h3, h4⟩ := pushAll_spec xs h2
    exact ⟨v2, by simp only [pushAll, h1, h3], by simpa using h4⟩

theorem copyLoop_spec {cap : Nat} {o : Vec α} {l : List α} (ho : Rep cap o l) : ∀ (n : Nat) {v : Vec α} {m : Nat},
    m ≤ o.size → o.size < n + m → Rep cap v (l.take m) → v.size = m → ∃ v', copyLoop n v o = some v' ∧ Rep cap v' (l.take o.size)
  | 0, v, m, hm, hn, hv, hs => by omega
  | n + 1, v, m, hm, hn, hv, hs => by
    have hso := ho.size
    unfold copyLoop
    by_cases hlt : v.size < o.size
    · rw [if_pos hlt, ho.ref hlt]
      have hx : l[v.size]? = some (l[v.size]'(by omega)) := List.getElem?_eq_getElem _
      rw [hx]
      simp only
      obtain ⟨v1, h1, h2⟩ := rep_push hv (l[v.size]'(by omega))
      unfold pushBack at h1
      rw [hv.cells_length, if_pos (by omega)] at h1
      obtain ⟨c, hc, rfl⟩ := Option.map_eq_some_iff.mp h1
      rw [hc]
      simp only
      have htk : l.take m ++ [l[v.size]'(by omega)] = l.take (m + 1) := by
        subst hs
        rw [List.take_succ, hx]; rfl
      rw [htk] at h2
      exact copyLoop_spec ho n (m := m + 1) (by omega) (by omega) h2 (by simp; omega)
    · rw [if_neg hlt]
      have : m = o.size := by omega
      subst this
      exact ⟨v, rfl, hv⟩

theorem copy_result {cap : Nat} {o r : Vec α} {l : List α} (ho : Rep cap o l) (hr : Rep cap r (l.take o.size)) :
    Rep cap ⟨r.size, o.dyn, r.cells⟩ l := by
  have hso := ho.size
  have hrs := hr.size
  refine ⟨?_, ?_, ho.dyn⟩
  · simp only [hrs, List.length_take]; omega
  · simp only [hr.cells]
    rw [List.take_take, List.length_take, hso]
    by_cases hc : cap ≤ l.length
    · rw [show min cap (min cap l.length) = cap by omega, show cap - min (min cap l.length) l.length = cap - l.length by omega]
    · have h2 : min cap (min cap l.length) = l.length := by omega
      rw [h2, List.take_of_length_le (Nat.le_refl _), List.take_of_length_le (by omega : l.length ≤ cap),
        show cap - min (min cap l.length) l.length = cap - l.length by omega]

theorem copyFrom_spec {cap : Nat} {o : Vec α} {l : List α} (ho : Rep cap o l) : ∃ v, copyFrom (fresh cap) o = some v ∧ Rep cap v l := by
  obtain ⟨r, h1, h2⟩ := copyLoop_spec ho (o.size + 1) (m := 0) (v := fresh cap) (by omega) (by omega) (by simpa using rep_fresh cap) rfl
  exact ⟨⟨r.size, o.dyn, r.cells⟩, by unfold copyFrom; rw [h1]; rfl, copy_result ho h2⟩

theorem moveFrom_spec {cap : Nat} {o : Vec α} {l : List α} (ho : Rep cap o l) :
    ∃ v o', moveFrom (fresh cap) o = some (v, o') ∧ Rep cap v l ∧ Rep cap o' [] := by
  obtain ⟨r, h1, h2⟩ := copyLoop_spec ho (o.size + 1) (m := 0) (v := fresh cap) (by omega) (by omega) (by simpa using rep_fresh cap) rfl
  refine ⟨⟨r.size, o.dyn, r.cells⟩, ⟨0, [], List.replicate cap none⟩, by unfold moveFrom; rw [h1]; simp only [dtor_spec ho], copy_result ho h2, rep_fresh cap⟩

/-- All vectors of the program hold their sequences. -/
def Sim (cap : Nat) (w : World α) (a : Nat → List α) : Prop := ∀ i, Rep cap (w i) (a i)

theorem Sim.put {cap : Nat} {w : World α} {a : Nat → List α} (h : Sim cap w a) (i : Nat) {v : Vec α} {l : List α} (hv : Rep cap v l) :
    Sim cap (w.put i v) (Spec.put a i l) := by
  intro j
  unfold World.put Spec.put
  split
  · exact hv
  · exact h j

theorem step_spec {cap : Nat} {w : World α} {a : Nat → List α} (h : Sim cap w a) (op : Op α) (hns : Spec.noSelf op) :
    ∃ w', step cap w op = some (w', (Spec.step a op).2) ∧ Sim cap w' (Spec.step a op).1 := by
  cases op with
  | push i x =>
    obtain ⟨v, h1, h2⟩ := rep_push (h i) x
    exact ⟨_, by simp only [step, h1]; rfl, h.put i h2⟩
  | «at» i n => exact ⟨w, by simp only [step, at_spec (h i)]; rfl, h⟩
  | setAt i n x =>
    rcases setAt_spec (h i) n x with ⟨h1, v, h2, h3⟩ | ⟨h1, h2⟩
    · refine ⟨w.put i v, by simp only [step, Spec.step, h1, h2, if_true]; rfl, ?_⟩
      simp only [Spec.step, h1, if_true]; exact h.put i h3
    · refine ⟨w.put i (w i), by simp only [step, Spec.step, h1, h2, if_false]; rfl, ?_⟩
      simp only [Spec.step, h1, if_false]
      intro j
      unfold World.put
      split
      · rename_i hj; subst hj; exact h j
      · exact h j
  | size i => exact ⟨w, by simp only [step, (h i).length]; rfl, h⟩
  | iterate i => exact ⟨w, by simp only [step, iterate_spec (h i)]; rfl, h⟩
  | clear i => exact ⟨_, by simp only [step, clear_spec (h i)]; rfl, h.put i (rep_fresh cap)⟩
  | assign i l =>
    obtain ⟨v, h1, h2⟩ := pushAll_spec l (rep_fresh (α := α) cap)
    exact ⟨_, by simp only [step, clear_spec (h i), h1]; rfl, h.put i (by simpa using h2)⟩
  | copy i j =>
    obtain ⟨v, h1, h2⟩ := copyFrom_spec (h j)
    have hw : (w.put i (fresh cap)) j = w j := by unfold World.put; rw [if_neg (Ne.symm hns)]
    exact ⟨_, by simp only [step, clear_spec (h i), hw, h1]; rfl, h.put i h2⟩
  | move i j =>
    obtain ⟨v, o, h1, h2, h3⟩ := moveFrom_spec (h j)
    have hw : (w.put i (fresh cap)) j = w j := by unfold World.put; rw [if_neg (Ne.symm hns)]
    refine ⟨_, by simp only [step, clear_spec (h i), hw, h1]; rfl, ?_⟩
    simp only [if_neg hns]
    exact (h.put i h2).put j h3
  | renew i => exact ⟨_, by simp only [step, dtor_spec (h i)]; rfl, h.put i (rep_fresh cap)⟩

theorem run_spec {cap : Nat} : ∀ (ops : List (Op α)) {w : World α} {a : Nat → List α}, Sim cap w a → (∀ op ∈ ops, Spec.noSelf op) →
    ∃ w', run cap w ops = some (w', (Spec.run a ops).2) ∧ Sim cap w' (Spec.run a ops).1
  | [], w, a, h, _ => ⟨w, rfl, h⟩
  | op :: ops, w, a, h, hn => by
    obtain ⟨w1, h1, h2⟩ := step_spec h op (hn op List.mem_cons_self)
    obtain ⟨w2, h3, h4⟩ := run_spec ops h2 (fun o ho => hn o (List.mem_cons_of_mem _ ho))
    exact ⟨w2, by simp only [run, h1, h3]; rfl, h4⟩

end
end Verif.Inplace
