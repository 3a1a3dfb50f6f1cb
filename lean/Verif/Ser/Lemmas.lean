import Verif.Ser.Spec
import Verif.Ser.TypesSpec

/-! # Lemmas about events, integers and texts of numbers -/

namespace Verif.Ser

/-- The events write this value wherever one is expected -/
def Pushes (es : List Ev) (d : Doc) : Prop :=
  ∀ b rest, Builder.run b (es ++ rest) = (b.put d).bind fun b => b.run rest

/-- The events write these values into an open list -/
def PushesAll (es : List Ev) (ds : List Doc) : Prop :=
  ∀ acc fs done rest, Builder.run ⟨.list acc :: fs, done⟩ (es ++ rest) = Builder.run ⟨.list (acc ++ ds) :: fs, done⟩ rest

/-- The events write these properties into an open object -/
def PushesMems (es : List Ev) (ms : List (Str × Doc)) : Prop :=
  ∀ acc fs done rest, Builder.run ⟨.obj acc none :: fs, done⟩ (es ++ rest) = Builder.run ⟨.obj (acc ++ ms) none :: fs, done⟩ rest

theorem Pushes.all {es d} (h : Pushes es d) : PushesAll es [d] := by
  intro acc fs done rest
  rw [h]
  rfl

theorem PushesAll.nil : PushesAll [] [] := by
  intro acc fs done rest
  simp

theorem PushesAll.append {a b x y} (h : PushesAll a x) (k : PushesAll b y) : PushesAll (a ++ b) (x ++ y) := by
  intro acc fs done rest
  rw [List.append_assoc, h, k, List.append_assoc]

theorem PushesAll.list {es ds} (h : PushesAll es ds) : Pushes (.beginList :: es ++ [.endList]) (.list ds) := by
  intro b rest
  show Builder.run b (.beginList :: (es ++ [.endList] ++ rest)) = _
  rw [Builder.run, Builder.step, Option.bind, List.append_assoc, h]
  rfl

theorem PushesMems.nil : PushesMems [] [] := by
  intro acc fs done rest
  simp

theorem PushesMems.append {a b x y} (h : PushesMems a x) (k : PushesMems b y) : PushesMems (a ++ b) (x ++ y) := by
  intro acc fs done rest
  rw [List.append_assoc, h, k, List.append_assoc]

theorem PushesMems.obj {es ms} (h : PushesMems es ms) : Pushes (.beginObj :: es ++ [.endObj]) (.map ms) := by
  intro b rest
  show Builder.run b (.beginObj :: (es ++ [.endObj] ++ rest)) = _
  rw [Builder.run, Builder.step, Option.bind, List.append_assoc, h]
  rfl

theorem Pushes.mem {es d} (n : Str) (h : Pushes es d) : PushesMems (.name n :: es) [(n, d)] := by
  intro acc fs done rest
  show Builder.run _ (.name n :: (es ++ rest)) = _
  rw [Builder.run, Builder.step, Option.bind, h]
  rfl

theorem Pushes.describes {es d} (h : Pushes es d) : Describes es d := by
  have := h ⟨[], []⟩ []
  rw [List.append_nil] at this
  exact this

theorem pushes_pair {a b x y} (h : Pushes a x) (k : Pushes b y) :
    Pushes (.beginList :: a ++ b ++ [.endList]) (.list [x, y]) := by
  have := PushesAll.list (h.all.append k.all)
  simpa using this

theorem pushes_null : Pushes [.null] .null := fun _ _ => rfl
theorem pushes_bool (b) : Pushes [.bool b] (.bool b) := fun _ _ => rfl
theorem pushes_int (i) : Pushes [.int i] (.int i) := fun _ _ => rfl
theorem pushes_float (i) : Pushes [.float i] (.float i) := fun _ _ => rfl
theorem pushes_str (s) : Pushes [.str s] (.str s) := fun _ _ => rfl
theorem pushes_bytes (s) : Pushes [.bytes s] (.bytes s) := fun _ _ => rfl

/-- A container: every element is written and read back -/
theorem pushes_flatMap {α : Type} (ser : α → List Ev) (f : Doc → Option α) (vs : List α)
    (h : ∀ x ∈ vs, ∃ d, Pushes (ser x) d ∧ f d = some x) :
    ∃ ds, PushesAll (vs.flatMap ser) ds ∧ readAll f ds = some vs := by
  induction vs with
  | nil => exact ⟨[], PushesAll.nil, rfl⟩
  | cons v vs ih =>
    obtain ⟨d, hd, hf⟩ := h v (List.mem_cons_self ..)
    obtain ⟨ds, hds, hr⟩ := ih fun x hx => h x (List.mem_cons_of_mem _ hx)
    refine ⟨d :: ds, ?_, ?_⟩
    · rw [List.flatMap_cons]
      exact hd.all.append hds
    · rw [readAll, hf, hr]
      rfl

theorem find_append (n : Str) (a b : List (Str × Doc)) : find n (a ++ b) = (find n a).or (find n b) := by
  induction a with
  | nil => simp [find]
  | cons x a ih =>
    obtain ⟨k, d⟩ := x
    simp only [List.cons_append, find]
    by_cases h : k = n
    · rw [if_pos h, if_pos h]; rfl
    · rw [if_neg h, if_neg h, ih]

/-- Inserting in order appends -/
theorem insertBy_last {α κ : Type} (less : κ → κ → Bool) (key : α → κ) (x : α) (l : List α)
    (h : ∀ y ∈ l, less (key y) (key x) = true ∧ less (key x) (key y) = false) :
    insertBy less key x l = l ++ [x] := by
  induction l with
  | nil => rfl
  | cons y l ih =>
    have hy := h y (List.mem_cons_self ..)
    rw [insertBy, hy.2, hy.1, ih fun z hz => h z (List.mem_cons_of_mem _ hz)]
    simp

theorem foldl_insertBy {α κ : Type} (less : κ → κ → Bool) (key : α → κ) (l acc : List α)
    (h : (acc ++ l).Pairwise fun x y => less (key x) (key y) = true ∧ less (key y) (key x) = false) :
    l.foldl (fun s x => insertBy less key x s) acc = acc ++ l := by
  induction l generalizing acc with
  | nil => simp
  | cons x l ih =>
    rw [List.foldl_cons, insertBy_last, ih]
    · simp
    · simpa using h
    · intro y hy
      exact (List.pairwise_append.mp h).2.2 y hy x (List.mem_cons_self ..)

theorem foldl_insertBy_sorted {α κ : Type} (less : κ → κ → Bool) (key : α → κ) (l : List α)
    (h : l.Pairwise fun x y => less (key x) (key y) = true ∧ less (key y) (key x) = false) :
    l.foldl (fun s x => insertBy less key x s) [] = l :=
  foldl_insertBy less key l [] h

/-- `Int` form of a two's complement conversion -/
theorem wrap_id (b : Nat) (i : Int) (h : -2 ^ b ≤ i ∧ i < 2 ^ b) :
    (i + 2 ^ b) % 2 ^ (b + 1) - 2 ^ b = i := by
  rw [Int.emod_eq_of_lt (by omega) (by rw [Int.pow_succ]; omega)]
  omega

theorem narrow_ser (signed : Bool) (bits : Nat) (hb : 1 ≤ bits ∧ bits ≤ 64) (i : Int) (h : InRange signed bits i) :
    narrow signed bits (if signed then i else toS64 i) = i := by
  cases signed
  · simp only [InRange, Bool.false_eq_true, if_false] at h
    simp only [narrow, Bool.false_eq_true, if_false, toS64]
    have hd : ((2 : Int) ^ bits) ∣ 2 ^ 64 := by
      obtain ⟨c, hc⟩ := Nat.exists_eq_add_of_le hb.2
      exact ⟨2 ^ c, by rw [hc, Int.pow_add]⟩
    rw [← Int.emod_emod_of_dvd _ hd]
    have e : ((i + 2 ^ 63) % 2 ^ 64 - 2 ^ 63) % 2 ^ 64 = i % 2 ^ 64 := by omega
    rw [e, Int.emod_emod_of_dvd _ hd]
    exact Int.emod_eq_of_lt h.1 h.2
  · simp only [InRange, if_true] at h
    simp only [narrow, if_true]
    obtain ⟨b, rfl⟩ : ∃ b, bits = b + 1 := ⟨bits - 1, by omega⟩
    exact wrap_id b i h

theorem which_narrow (w : Nat) (h : w < 2 ^ 63) : (narrow false 64 (toS64 w)).toNat = w := by
  have := narrow_ser false 64 (by omega) w (by simp only [InRange, Bool.false_eq_true, if_false]; omega)
  simp only [Bool.false_eq_true, if_false] at this
  rw [this]
  omega

/-- A number below a million, or a million or more: the unit divides what is already rounded -/
theorem gUnit_pow (fuel n : Nat) : ∃ j, gUnit fuel n = 10 ^ j ∧ (n < 1000000 → j = 0) ∧ ∀ i < j, 1000000 ≤ n / 10 ^ i := by
  induction fuel generalizing n with
  | zero => exact ⟨0, rfl, fun _ => rfl, fun i hi => absurd hi (by omega)⟩
  | succ f ih =>
    rw [gUnit]
    by_cases h : n < 1000000
    · rw [if_pos h]
      exact ⟨0, rfl, fun _ => rfl, fun i hi => absurd hi (by omega)⟩
    · rw [if_neg h]
      obtain ⟨j, hj, _, hk⟩ := ih (n / 10)
      refine ⟨j + 1, by rw [hj, Nat.pow_succ, Nat.mul_comm], fun h' => absurd h' h, ?_⟩
      intro i hi
      cases i with
      | zero => simp; omega
      | succ i =>
        have := hk i (by omega)
        rwa [Nat.div_div_eq_div_mul, Nat.mul_comm, ← Nat.pow_succ] at this

theorem roundTo_of_dvd (u n : Nat) (hu : 0 < u) (h : u ∣ n) : roundTo u n = n := by
  rw [roundTo, Nat.mod_eq_zero_of_dvd h, if_pos (by omega), Nat.div_mul_cancel h]

theorem sixDigits_exact (i : Int) (h : SixDigits i) : sixDigits i = i := by
  obtain ⟨m, k, hm, hk⟩ := h
  obtain ⟨j, hj, _, hl⟩ := gUnit_pow i.natAbs i.natAbs
  have hjk : j ≤ k := by
    rcases Nat.lt_or_ge k j with hc | hc
    · have := hl k hc
      rw [hk, Nat.mul_div_cancel _ (Nat.pow_pos (by omega))] at this
      omega
    · exact hc
  have hr : roundTo (gUnit i.natAbs i.natAbs) i.natAbs = i.natAbs := by
    refine roundTo_of_dvd _ _ (by rw [hj]; exact Nat.pow_pos (by omega)) ?_
    rw [hj]
    rw [hk]
    exact Nat.dvd_trans (Nat.pow_dvd_pow 10 hjk) (Nat.dvd_mul_left ..)
  rw [sixDigits, hr]
  split <;> omega

end Verif.Ser
