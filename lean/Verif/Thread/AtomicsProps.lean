import Verif.Thread.Atomics
/-!
Atomic arithmetic returns what was there before, numbers of a sequence are distinct until it wraps, `Store` writes once, and a spinlock admits one thread.
-/
namespace Verif.Thread.Atomics
open Verif.Num.Checked (Ty promote types)

/-- `wrap` gives the value of the type that differs from `v` by a multiple of its size. -/
theorem wrap_spec {t : Ty} (ht : t ∈ types) (v : Int) : t.lo ≤ wrap t v ∧ wrap t v ≤ t.hi ∧ ∃ k : Int, wrap t v = v + k * 2 ^ t.bits := by
  simp only [types, List.mem_cons, List.not_mem_nil, or_false] at ht
  rcases ht with rfl | rfl | rfl | rfl | rfl | rfl | rfl | rfl <;> simp [wrap, Ty.lo, Ty.hi] <;>
  first
  | exact ⟨by omega, by omega, -((v + 128) / 256), by omega⟩
  | exact ⟨by omega, by omega, -(v / 256), by omega⟩
  | exact ⟨by omega, by omega, -((v + 32768) / 65536), by omega⟩
  | exact ⟨by omega, by omega, -(v / 65536), by omega⟩
  | exact ⟨by omega, by omega, -((v + 2147483648) / 4294967296), by omega⟩
  | exact ⟨by omega, by omega, -(v / 4294967296), by omega⟩
  | exact ⟨by omega, by omega, -((v + 9223372036854775808) / 18446744073709551616), by omega⟩
  | exact ⟨by omega, by omega, -(v / 18446744073709551616), by omega⟩

theorem wrap_id {t : Ty} (ht : t ∈ types) {v : Int} (h1 : t.lo ≤ v) (h2 : v ≤ t.hi) : wrap t v = v := by
  simp only [types, List.mem_cons, List.not_mem_nil, or_false] at ht
  rcases ht with rfl | rfl | rfl | rfl | rfl | rfl | rfl | rfl <;> simp [wrap, Ty.lo, Ty.hi] at * <;> omega

theorem wrap_back {t : Ty} (ht : t ∈ types) {v : Int} (h1 : t.lo ≤ v) (h2 : v ≤ t.hi) (a : Int) : wrap t (wrap t (v + a) - a) = v := by
  simp only [types, List.mem_cons, List.not_mem_nil, or_false] at ht
  rcases ht with rfl | rfl | rfl | rfl | rfl | rfl | rfl | rfl <;> simp [wrap, Ty.lo, Ty.hi] at * <;> omega

/-- The types in which no operation of `atomic` overflows: unsigned ones, and those narrower than `int`. -/
def Safe (t : Ty) : Prop := t.signed = false ∨ t.bits < 32

theorem arith_safe {t : Ty} (ht : t ∈ types) (hs : Safe t) {x a : Int} (h1 : t.lo ≤ x) (h2 : x ≤ t.hi) (h3 : t.lo ≤ a) (h4 : a ≤ t.hi) :
    arith t (x - a) = some (wrap t (x - a)) ∧ arith t (x + a) = some (wrap t (x + a)) := by
  simp only [types, List.mem_cons, List.not_mem_nil, or_false] at ht
  rcases ht with rfl | rfl | rfl | rfl | rfl | rfl | rfl | rfl <;> simp [Safe, arith, promote, Ty.lo, Ty.hi] at * <;> omega

theorem arith_fits {t : Ty} (ht : t ∈ types) {x : Int} (h1 : t.lo ≤ x) (h2 : x ≤ t.hi) : arith t x = some x := by
  have hw := wrap_id ht h1 h2
  simp only [arith, hw]
  simp only [types, List.mem_cons, List.not_mem_nil, or_false] at ht
  clear hw
  rcases ht with rfl | rfl | rfl | rfl | rfl | rfl | rfl | rfl <;> simp [promote, Ty.lo, Ty.hi] at * <;> omega

/-- `fetch_add` leaves the sum, wrapped, and returns what was there before: always for unsigned and narrow types, … -/
theorem fetch_add_safe {t : Ty} (ht : t ∈ types) (hs : Safe t) {v a : Int} (h1 : t.lo ≤ v) (h2 : v ≤ t.hi) (h3 : t.lo ≤ a) (h4 : a ≤ t.hi) :
    fetchAdd t v a = (wrap t (v + a), some v) := by
  have hw := wrap_spec ht (v + a)
  simp only [fetchAdd, (arith_safe ht hs hw.1 hw.2.1 h3 h4).1, wrap_back ht h1 h2]

/-- … and for every type if the sum fits it. -/
theorem fetch_add_fits {t : Ty} (ht : t ∈ types) {v a : Int} (h1 : t.lo ≤ v) (h2 : v ≤ t.hi) (h3 : t.lo ≤ v + a) (h4 : v + a ≤ t.hi) : fetchAdd t v a = (v + a, some v) := by
  simp only [fetchAdd, wrap_id ht h3 h4]
  rw [show v + a - a = v by omega, arith_fits ht h1 h2]

theorem fetch_sub_safe {t : Ty} (ht : t ∈ types) (hs : Safe t) {v a : Int} (h1 : t.lo ≤ v) (h2 : v ≤ t.hi) (h3 : t.lo ≤ a) (h4 : a ≤ t.hi) :
    fetchSub t v a = (wrap t (v - a), some v) := by
  have hw := wrap_spec ht (v - a)
  have hb := wrap_back ht h1 h2 (-a)
  simp only [fetchSub, (arith_safe ht hs hw.1 hw.2.1 h3 h4).2]
  rw [show v - a = v + -a by omega, show wrap t (v + -a) + a = wrap t (v + -a) - -a by omega, hb]

theorem fetch_sub_fits {t : Ty} (ht : t ∈ types) {v a : Int} (h1 : t.lo ≤ v) (h2 : v ≤ t.hi) (h3 : t.lo ≤ v - a) (h4 : v - a ≤ t.hi) : fetchSub t v a = (v - a, some v) := by
  simp only [fetchSub, wrap_id ht h3 h4]
  rw [show v - a + a = v by omega, arith_fits ht h1 h2]

/-- `++x` and `--x` return the new contents. -/
theorem pre_inc_dec {t : Ty} (ht : t ∈ types) {v : Int} (h1 : t.lo ≤ v) (h2 : v ≤ t.hi) :
    (v + 1 ≤ t.hi → preInc t v = (v + 1, some (v + 1))) ∧ (t.lo ≤ v - 1 → preDec t v = (v - 1, some (v - 1))) := by
  refine ⟨fun h => ?_, fun h => ?_⟩
  · simp only [preInc, fetch_add_fits ht h1 h2 (by omega : t.lo ≤ v + 1) h, arith_fits ht (by omega : t.lo ≤ v + 1) h]
  · simp only [preDec, fetch_sub_fits ht h1 h2 h (by omega : v - 1 ≤ t.hi), arith_fits ht h (by omega : v - 1 ≤ t.hi)]

example : fetchAdd ⟨8, true⟩ 127 1 = (-128, some 127) ∧ fetchAdd ⟨32, false⟩ 4294967295 1 = (0, some 4294967295) ∧ preInc ⟨64, true⟩ 5 = (6, some 6) ∧
    fetchSub ⟨16, false⟩ 0 1 = (65535, some 0) := by decide

/-- For `int` and wider signed types the subtraction that undoes the addition overflows when the addition wrapped: the result is undefined. -/
theorem signed_wrap_violated : fetchAdd ⟨32, true⟩ 2147483647 1 = (-2147483648, none) ∧ fetchSub ⟨64, true⟩ (-9223372036854775808) 1 = (9223372036854775807, none) := by decide

/-- The results of `n` calls of `Next`, whoever makes them: the numbers from the start, wrapped. -/
theorem nexts_spec {t : Ty} (ht : t ∈ types) (hs : Safe t) : ∀ (n : Nat) (v : Int), t.lo ≤ v → v ≤ t.hi →
    nexts t n v = (List.range n).map fun (i : Nat) => wrap t (v + i) := by
  intro n
  induction n with
  | zero => intro v _ _; rfl
  | succ n ih =>
    intro v h1 h2
    have h1' : t.lo ≤ (1 : Int) ∧ (1 : Int) ≤ t.hi := by
      simp only [types, List.mem_cons, List.not_mem_nil, or_false] at ht
      rcases ht with rfl | rfl | rfl | rfl | rfl | rfl | rfl | rfl <;> decide
    have hw := wrap_spec ht (v + 1)
    simp only [nexts, fetch_add_safe ht hs h1 h2 h1'.1 h1'.2]
    rw [ih _ hw.1 hw.2.1, List.range_succ_eq_map, List.map_cons, List.map_map]
    congr 1
    · simp [wrap_id ht h1 h2]
    · apply List.map_congr_left
      intro i _
      simp only [Function.comp]
      simp only [types, List.mem_cons, List.not_mem_nil, or_false] at ht
      rcases ht with rfl | rfl | rfl | rfl | rfl | rfl | rfl | rfl <;> simp [wrap] <;> omega

theorem nexts_signed {t : Ty} (ht : t ∈ types) : ∀ (n : Nat) (v : Int), t.lo ≤ v → v + n ≤ t.hi → nexts t n v = (List.range n).map fun (i : Nat) => v + i := by
  intro n
  induction n with
  | zero => intro v _ _; rfl
  | succ n ih =>
    intro v h1 h2
    simp only [nexts, fetch_add_fits ht h1 (by omega : v ≤ t.hi) (by omega : t.lo ≤ v + 1) (by omega : v + 1 ≤ t.hi)]
    rw [ih (v + 1) (by omega) (by omega), List.range_succ_eq_map, List.map_cons, List.map_map]
    congr 1
    · simp
    · apply List.map_congr_left; intro i _; simp only [Function.comp]; omega

/-- No number is given out twice by as many calls as the type has values, from whatever threads. -/
theorem next_distinct_partial {t : Ty} (ht : t ∈ types) (hs : Safe t) {n : Nat} (hn : n ≤ 2 ^ t.bits) {start : Int} (h1 : t.lo ≤ start) (h2 : start ≤ t.hi) :
    (nexts t n start).length = n ∧ (nexts t n start).Nodup := by
  rw [nexts_spec ht hs n start h1 h2]
  refine ⟨by simp, ?_⟩
  rw [List.Nodup, List.pairwise_map]
  have key : ∀ i j : Nat, i < j → j < n → wrap t (start + i) ≠ wrap t (start + j) := by
    intro i j hij hj
    have hj' : j < 2 ^ t.bits := by omega
    clear hn hj
    simp only [types, List.mem_cons, List.not_mem_nil, or_false] at ht
    rcases ht with rfl | rfl | rfl | rfl | rfl | rfl | rfl | rfl <;> simp [wrap] at * <;> omega
  rw [List.pairwise_iff_getElem]
  intro a b ha hb hab
  simp only [List.length_range] at ha hb
  simpa using key a b hab hb

/-- After that they repeat: the 257th number of an 8-bit sequence is the first one. -/
theorem next_repeats_violated : (nexts ⟨8, false⟩ 257 7).getLast? = some 7 ∧ (nexts ⟨8, false⟩ 257 7).head? = some 7 := by decide +kernel

/-- `Store`: the attempts that found something else than they expected wrote nothing; when the loop ends, the last attempt, and no other, wrote the value. -/
theorem store_once_gen (seen : Nat → Int) : ∀ (fuel i : Nat) (o : Int),
    ((storeLoop seen fuel i o o).2 = true → ∃ j, i ≤ j ∧ (storeLoop seen fuel i o o).1 = [j] ∧ j < i + fuel) ∧ ((storeLoop seen fuel i o o).2 = false → (storeLoop seen fuel i o o).1 = []) := by
  intro fuel
  induction fuel with
  | zero => intro i o; simp [storeLoop]
  | succ n ih =>
    intro i o
    simp only [storeLoop]
    by_cases h : seen i = o
    · simp only [if_pos h]
      exact ⟨fun _ => ⟨i, Nat.le_refl i, rfl, by omega⟩, fun hc => nomatch hc⟩
    · simp only [if_neg h, List.nil_append]
      refine ⟨fun he => ?_, fun he => (ih (i + 1) (seen i)).2 he⟩
      obtain ⟨j, hj, hl, hlt⟩ := (ih (i + 1) (seen i)).1 he
      exact ⟨j, by omega, hl, by omega⟩

theorem store_once (seen : Nat → Int) (fuel : Nat) :
    ((store seen fuel).2 = true → ∃ j, (store seen fuel).1 = [j]) ∧ ((store seen fuel).2 = false → (store seen fuel).1 = []) := by
  refine ⟨fun h => ?_, (store_once_gen seen fuel 0 0).2⟩
  obtain ⟨j, _, hj, _⟩ := (store_once_gen seen fuel 0 0).1 h
  exact ⟨j, hj⟩

/-- If nobody else changes the variable between two attempts, the loop ends. -/
theorem store_ends (seen : Nat → Int) : ∀ (fuel i : Nat) (o : Int) (k : Nat), i ≤ k → seen k = seen (k + 1) → k + 1 < i + fuel → (storeLoop seen fuel i o o).2 = true := by
  intro fuel
  induction fuel with
  | zero => intro i o k h1 _ h2; omega
  | succ n ih =>
    intro i o k h1 h2 h3
    simp only [storeLoop]
    by_cases h : seen i = o
    · simp [h]
    · simp only [if_neg h]
      by_cases hk : i = k
      · subst hk
        cases n with
        | zero => omega
        | succ n => simp [storeLoop, h2]
      · exact ih (i + 1) (seen i) k (by omega) h2 (by omega)

example : store (fun i => if i < 3 then (i : Int) + 5 else 9) 10 = ([4], true) := by decide

/-- The flag is up exactly if somebody is inside, and at most one is. -/
structure LockInv (s : Lock) : Prop where
  flag : s.flag = s.pcs.count .inside
  one : s.pcs.count .inside ≤ 1

theorem lock_init (n : Nat) : LockInv (lockInit n) := by
  have : (List.replicate n Pc.out).count .inside = 0 := List.count_eq_zero.mpr (by simp [List.mem_replicate])
  exact ⟨by simp [lockInit, this], by simp [lockInit, this]⟩

theorem lock_step {s s' : Lock} {i : Nat} (h : LockInv s) (hs : lockStep s i = some s') : LockInv s' := by
  simp only [lockStep] at hs
  cases hi : s.pcs[i]? with
  | none => rw [hi] at hs; simp at hs
  | some pc =>
    rw [hi] at hs
    obtain ⟨hlt, hg⟩ := List.getElem?_eq_some_iff.mp hi
    have hcount : ∀ q, (s.pcs.set i q).count .inside = s.pcs.count .inside - (if pc == Pc.inside then 1 else 0) + (if q == Pc.inside then 1 else 0) := by
      intro q; rw [List.count_set hlt, hg]
    have h1 := h.flag
    have h2 := h.one
    cases pc with
    | out =>
      simp only [Option.some.injEq] at hs
      subst hs
      have := hcount .trying
      simp at this
      exact ⟨by simp only [this]; exact h1, by simp only [this]; exact h2⟩
    | trying =>
      simp only [Option.some.injEq] at hs
      subst hs
      have := hcount .inside
      simp at this
      by_cases hf : s.flag = 0
      · have : s.pcs.count .inside = 0 := by omega
        constructor <;> simp_all [testAndSet]
      · have hb : (s.flag == 0) = false := by simpa using hf
        constructor <;> simp only [testAndSet, hb, Bool.false_eq_true, if_false] <;> omega
    | inside =>
      simp only [Option.some.injEq] at hs
      subst hs
      have := hcount .out
      simp at this
      constructor <;> simp only [clear, this] <;> omega

theorem lock_run : ∀ (is : List Nat) (s s' : Lock), LockInv s → lockRun s is = some s' → LockInv s' := by
  intro is
  induction is with
  | nil => intro s s' h hr; simp only [lockRun, Option.some.injEq] at hr; exact hr ▸ h
  | cons i is ih =>
    intro s s' h hr
    simp only [lockRun] at hr
    cases hs : lockStep s i with
    | none => rw [hs] at hr; simp at hr
    | some s1 => rw [hs] at hr; exact ih s1 s' (lock_step h hs) hr

/-- Whatever the schedule, at most one thread is between the constructor and the destructor. -/
theorem spinlock_exclusive {n : Nat} {is : List Nat} {s : Lock} (h : lockRun (lockInit n) is = some s) (i j : Nat) (hi : s.pcs[i]? = some .inside) (hj : s.pcs[j]? = some .inside) :
    i = j := by
  have hinv := lock_run is _ _ (lock_init n) h
  have key : ∀ (l : List Pc) (a b : Nat), a < b → l[a]? = some .inside → l[b]? = some .inside → 2 ≤ l.count .inside := by
    intro l
    induction l with
    | nil => intro a b _ ha; simp at ha
    | cons c l ih =>
      intro a b hab ha hb
      cases b with
      | zero => omega
      | succ b =>
        cases a with
        | zero =>
          simp at ha hb
          subst ha
          have : 0 < l.count Pc.inside := List.count_pos_iff.mpr (List.mem_of_getElem? hb)
          simp only [List.count_cons_self]; omega
        | succ a =>
          simp at ha hb
          have := ih a b (by omega) ha hb
          rw [List.count_cons]; omega
  have h1 := hinv.one
  rcases Nat.lt_trichotomy i j with hlt | heq | hlt
  · have := key _ i j hlt hi hj; omega
  · exact heq
  · have := key _ j i hlt hj hi; omega

/-- And when nobody is inside, a thread that tries gets in with its next attempt. -/
theorem spinlock_progress {n : Nat} {is : List Nat} {s : Lock} (h : lockRun (lockInit n) is = some s) (hn : ∀ j : Nat, s.pcs[j]? ≠ some .inside) (i : Nat)
    (hi : s.pcs[i]? = some .trying) : ∃ s', lockStep s i = some s' ∧ s'.pcs[i]? = some .inside := by
  have hinv := lock_run is _ _ (lock_init n) h
  have h0 : s.flag = 0 := by
    rw [hinv.flag]
    have : s.pcs.count .inside = 0 := by
      rw [List.count_eq_zero]
      intro hm
      obtain ⟨j, hj⟩ := List.getElem?_of_mem hm
      exact hn j hj
    omega
  obtain ⟨hlt, _⟩ := List.getElem?_eq_some_iff.mp hi
  exact ⟨⟨1, s.pcs.set i .inside⟩, by simp only [lockStep, hi, testAndSet, h0]; rfl, by simp [hlt]⟩

example : (lockRun (lockInit 2) [0, 1, 0, 1, 1]).map (·.pcs) = some [.inside, .trying] ∧ (lockRun (lockInit 2) [0, 1, 0, 1, 0, 1]).map (·.pcs) = some [.out, .inside] := by decide

end Verif.Thread.Atomics
