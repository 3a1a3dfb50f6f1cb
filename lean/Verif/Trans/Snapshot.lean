/-
Copy-on-write of the transactional collections (stingraykit/collection/TransactionalSet.h:51-78, TransactionalDictionary.h likewise) with real sharing:
the committed items and the pending added/removed collections are addresses in a heap, enumerators keep holders, a holder keeps the address it was made
for, and a collection is modified in place exactly if its holder has expired. The contents of a collection is any type `C`.
Every step here happens under the mutex of the collection or on the thread of the transaction; destroying an enumerator may happen anywhere between steps.
-/
namespace Verif.Trans.Snap

/-- The three collections: `_impl->Items`, `_added`, `_removed`: TransactionalSet.h:178, 214-216. -/
inductive Which where
  | items | added | removed
  deriving DecidableEq, Repr

/-- A `SetTypePtr` and its `HolderWeakPtr`.  For TransactionalSet.h 51-222. -/
structure Slot where
  ptr : Nat
  weak : Option Nat

/-- The heap, the holders made so far (`Holder::Items`) and the enumerators with the holders they own (`none`: destroyed).  For TransactionalSet.h 51-222. -/
structure Sys (C : Type) where
  heap : Nat → C
  nextAddr : Nat
  addrOf : Nat → Nat
  nextHolder : Nat
  slot : Which → Slot
  enums : List (Option (List Nat))

section
variable {C : Type}

/-- A holder exists as long as an enumerator owns it.  For TransactionalSet.h 51-222. -/
def alive (s : Sys C) (h : Nat) : Bool :=
  s.enums.any (fun e => match e with
    | some hs => hs.contains h
    | none => false)

/-- `weak_ptr::expired`.  For TransactionalSet.h 51-222. -/
def expired (s : Sys C) (w : Which) : Bool :=
  match (s.slot w).weak with
  | some h => !alive s h
  | none => true

/-- Change of one slot; a helper of the model of TransactionalSet.h 51-222. -/
def setSlot (f : Which → Slot) (w : Which) (v : Slot) : Which → Slot := fun x => if x = w then v else f x

/-- Change of a function at one point; a helper of the model of TransactionalSet.h 51-222. -/
def setAt {β : Type} (f : Nat → β) (i : Nat) (v : β) : Nat → β := fun x => if x = i then v else f x

/-- `make_shared_ptr<SetType>(contents)` stored in the slot, the holder reset.  For TransactionalSet.h 51-222. -/
def alloc (s : Sys C) (w : Which) (c : C) : Sys C :=
  { s with heap := setAt s.heap s.nextAddr c, nextAddr := s.nextAddr + 1, slot := setSlot s.slot w ⟨s.nextAddr, none⟩ }

/-- `CopyOnWrite(items, holder, src)`: TransactionalSet.h:70-78; `c` is the contents of `src` (empty for null). -/
def copyOnWrite (s : Sys C) (w : Which) (c : C) : Sys C × Bool :=
  if expired s w then (s, false) else (alloc s w c, true)

/-- In-place modification of the collection the slot points to.  For TransactionalSet.h 51-222. -/
def write (s : Sys C) (w : Which) (c : C) : Sys C := { s with heap := setAt s.heap (s.slot w).ptr c }

/-- The contents a slot points to.  For TransactionalSet.h 51-222. -/
def contents (s : Sys C) (w : Which) : C := s.heap (s.slot w).ptr

/-- `GetItemsHolder`: TransactionalSet.h:60-68; the holder and the system. -/
def getHolder (s : Sys C) (w : Which) : Sys C × Nat :=
  match (s.slot w).weak with
  | some h => if alive s h then (s, h)
    else ({ s with addrOf := setAt s.addrOf s.nextHolder (s.slot w).ptr, nextHolder := s.nextHolder + 1, slot := setSlot s.slot w ⟨(s.slot w).ptr, some s.nextHolder⟩ }, s.nextHolder)
  | none =>
    ({ s with addrOf := setAt s.addrOf s.nextHolder (s.slot w).ptr, nextHolder := s.nextHolder + 1, slot := setSlot s.slot w ⟨(s.slot w).ptr, some s.nextHolder⟩ }, s.nextHolder)

/-- The calls, TransactionalSet.h 51-222. -/
inductive Op (C : Type) where
  /-- Start making an enumerator. -/
  | new
  /-- The enumerator gets the holder of a collection. -/
  | acquire (i : Nat) (w : Which)
  | close (i : Nat)
  /-- `CopyOnWrite(x, x)` and modification: `Add`, `Remove`, `RemoveWhere`, `Commit`. -/
  | mutate (w : Which) (g : C → C)
  /-- `if (!CopyOnWrite(null)) x->clear()`: `Clear`, `Revert`. -/
  | reset (w : Which)
  /-- `if (!CopyOnWrite(y)) *x = *y`: `Clear`. -/
  | assign (w v : Which)
  /-- A new transaction makes its own empty collections: TransactionalSet.h:221-222. -/
  | renew
  | read (w : Which)
  | readEnum (i : Nat)

/-- What a call returns, TransactionalSet.h 51-222. -/
inductive Out (C : Type) where
  | unit
  | contents (c : C)
  | enumerated (cs : Option (List C))

/-- Owning one more holder.  For TransactionalSet.h 51-222. -/
def own (es : List (Option (List Nat))) (i h : Nat) : List (Option (List Nat)) :=
  match es[i]? with
  | some (some hs) => es.set i (some (hs ++ [h]))
  | _ => es

/-- An enumerator that has not been destroyed.  For TransactionalSet.h 51-222. -/
def isOpen {β : Type} (es : List (Option β)) (i : Nat) : Bool :=
  match es[i]? with
  | some (some _) => true
  | _ => false

/-- A change by the transaction, TransactionalSet.h 51-222. -/
def mutate (s : Sys C) (w : Which) (g : C → C) : Sys C := write (copyOnWrite s w (contents s w)).1 w (g (contents (copyOnWrite s w (contents s w)).1 w))

/-- The transaction gives up its copy, TransactionalSet.h 51-222. -/
def reset (empty : C) (s : Sys C) (w : Which) : Sys C :=
  if (copyOnWrite s w empty).2 then (copyOnWrite s w empty).1 else write (copyOnWrite s w empty).1 w empty

/-- The handle takes another version, TransactionalSet.h 51-222. -/
def assign (s : Sys C) (w v : Which) : Sys C :=
  if (copyOnWrite s w (contents s v)).2 then (copyOnWrite s w (contents s v)).1 else write (copyOnWrite s w (contents s v)).1 w (contents s v)

/-- One step, TransactionalSet.h 51-222. -/
def step (empty : C) (s : Sys C) : Op C → Sys C × Out C
  | .new => ({ s with enums := s.enums ++ [some []] }, .unit)
  | .acquire i w =>
    if isOpen s.enums i then ({ (getHolder s w).1 with enums := own s.enums i (getHolder s w).2 }, .unit) else (s, .unit)
  | .close i => ({ s with enums := s.enums.set i none }, .unit)
  | .mutate w g => (mutate s w g, .unit)
  | .reset w => (reset empty s w, .unit)
  | .assign w v => (assign s w v, .unit)
  | .renew => (alloc (alloc s .added empty) .removed empty, .unit)
  | .read w => (s, .contents (contents s w))
  | .readEnum i => (s, .enumerated (match s.enums[i]? with
    | some (some hs) => some (hs.map (fun h => s.heap (s.addrOf h)))
    | _ => none))

/-- One step after another, for histories of TransactionalSet.h 51-222. -/
def run (empty : C) : Sys C → List (Op C) → List (Out C)
  | _, [] => []
  | s, op :: ops => (step empty s op).2 :: run empty (step empty s op).1 ops

/-- A new collection with a first transaction.  For TransactionalSet.h 51-222. -/
def init (empty : C) : Sys C :=
  ⟨fun _ => empty, 3, fun _ => 0, 0, fun w => match w with
    | .items => ⟨0, none⟩
    | .added => ⟨1, none⟩
    | .removed => ⟨2, none⟩, []⟩

/-! ### Specification: values, no sharing -/
namespace Spec

/-- Current contents and what each enumerator recorded.  For TransactionalSet.h 51-222. -/
structure St (C : Type) where
  val : Which → C
  enums : List (Option (List C))

/-- Change of a function at one point; a helper of the model of TransactionalSet.h 51-222. -/
def upd (f : Which → C) (w : Which) (c : C) : Which → C := fun x => if x = w then c else f x

/-- One step, TransactionalSet.h 51-222. -/
def step (empty : C) (s : St C) : Op C → St C × Out C
  | .new => (⟨s.val, s.enums ++ [some []]⟩, .unit)
  | .acquire i w => (⟨s.val, match s.enums[i]? with
    | some (some cs) => s.enums.set i (some (cs ++ [s.val w]))
    | _ => s.enums⟩, .unit)
  | .close i => (⟨s.val, s.enums.set i none⟩, .unit)
  | .mutate w g => (⟨upd s.val w (g (s.val w)), s.enums⟩, .unit)
  | .reset w => (⟨upd s.val w empty, s.enums⟩, .unit)
  | .assign w v => (⟨upd s.val w (s.val v), s.enums⟩, .unit)
  | .renew => (⟨upd (upd s.val .added empty) .removed empty, s.enums⟩, .unit)
  | .read w => (s, .contents (s.val w))
  | .readEnum i => (s, .enumerated (match s.enums[i]? with
    | some (some cs) => some cs
    | _ => none))

/-- One step after another, for histories of TransactionalSet.h 51-222. -/
def run (empty : C) : St C → List (Op C) → List (Out C)
  | _, [] => []
  | s, op :: ops => (step empty s op).2 :: run empty (step empty s op).1 ops

end Spec

/-! ### Refinement -/

theorem alive_iff {s : Sys C} {h : Nat} : alive s h = true ↔ ∃ hs, some hs ∈ s.enums ∧ h ∈ hs := by
  unfold alive
  rw [List.any_eq_true]
  constructor
  · rintro ⟨e, hm, he⟩
    cases e with
    | none => cases he
    | some hs => exact ⟨hs, hm, by simpa using he⟩
  · rintro ⟨hs, hm, hh⟩
    exact ⟨some hs, hm, by simpa using hh⟩

/-- What an enumerator sees.  For TransactionalSet.h 51-222. -/
def view (heap : Nat → C) (addrOf : Nat → Nat) (e : Option (List Nat)) : Option (List C) := e.map (fun hs => hs.map (fun h => heap (addrOf h)))

/-- Relation used in the proofs about TransactionalSet.h 51-222. -/
structure Rep (s : Sys C) (a : Spec.St C) : Prop where
  val : ∀ w, s.heap (s.slot w).ptr = a.val w
  inj : ∀ w v, (s.slot w).ptr = (s.slot v).ptr → w = v
  ptr : ∀ w, (s.slot w).ptr < s.nextAddr
  enums : a.enums = s.enums.map (view s.heap s.addrOf)
  hid : ∀ h, alive s h = true → h < s.nextHolder ∧ s.addrOf h < s.nextAddr
  wid : ∀ w h, (s.slot w).weak = some h → h < s.nextHolder
  fwd : ∀ w h, (s.slot w).weak = some h → alive s h = true → s.addrOf h = (s.slot w).ptr
  bwd : ∀ w h, alive s h = true → s.addrOf h = (s.slot w).ptr → (s.slot w).weak = some h

theorem rep_init (empty : C) : Rep (init empty) ⟨fun _ => empty, []⟩ := by
  refine ⟨fun w => rfl, ?_, ?_, rfl, ?_, ?_, ?_, ?_⟩
  · intro w v; cases w <;> cases v <;> simp [init]
  · intro w; cases w <;> simp [init]
  · intro h hh; simp [alive, init] at hh
  · intro w h hh; cases w <;> simp [init] at hh
  · intro w h hh; cases w <;> simp [init] at hh
  · intro w h hh; simp [alive, init] at hh

/-- Views do not change if the heap does not change where live holders point. -/
theorem view_congr {s : Sys C} {heap' : Nat → C} {addrOf' : Nat → Nat} (h : ∀ x, alive s x = true → heap' (addrOf' x) = s.heap (s.addrOf x)) :
    s.enums.map (view heap' addrOf') = s.enums.map (view s.heap s.addrOf) := by
  refine List.map_congr_left ?_
  intro e he
  cases e with
  | none => rfl
  | some hs =>
    simp only [view, Option.map_some, Option.some.injEq]
    refine List.map_congr_left ?_
    intro x hx
    exact h x (alive_iff.mpr ⟨hs, he, hx⟩)

theorem rep_alloc {s : Sys C} {a : Spec.St C} (hr : Rep s a) (w : Which) (c : C) : Rep (alloc s w c) ⟨Spec.upd a.val w c, a.enums⟩ := by
  have halive : ∀ h, alive (alloc s w c) h = alive s h := fun _ => rfl
  have hp : ∀ v, ((alloc s w c).slot v) = if v = w then ⟨s.nextAddr, none⟩ else s.slot v := fun _ => rfl
  refine ⟨?_, ?_, ?_, ?_, ?_, ?_, ?_, ?_⟩
  · intro v
    rw [hp]
    simp only [alloc, setAt, Spec.upd]
    by_cases hv : v = w
    · simp [hv]
    · simp only [if_neg hv]; rw [if_neg (by have := hr.ptr v; omega)]; exact hr.val v
  · intro v u
    rw [hp, hp]
    by_cases hv : v = w <;> by_cases hu : u = w
    · intro _; rw [hv, hu]
    · rw [if_pos hv, if_neg hu]; intro he; have := hr.ptr u; simp only at he; omega
    · rw [if_neg hv, if_pos hu]; intro he; have := hr.ptr v; simp only at he; omega
    · rw [if_neg hv, if_neg hu]; exact hr.inj v u
  · intro v
    rw [hp]
    by_cases hv : v = w
    · rw [if_pos hv]; simp only [alloc]; omega
    · rw [if_neg hv]; have := hr.ptr v; simp only [alloc]; omega
  · simp only
    rw [hr.enums]
    refine (view_congr (s := s) (heap' := (alloc s w c).heap) (addrOf' := s.addrOf) ?_).symm
    intro x hx
    simp only [alloc, setAt]
    rw [if_neg (by have := (hr.hid x hx).2; omega)]
  · intro h hh
    have := hr.hid h hh
    exact ⟨this.1, by simp only [alloc]; omega⟩
  · intro v h hh
    rw [hp] at hh
    by_cases hv : v = w
    · rw [if_pos hv] at hh; cases hh
    · rw [if_neg hv] at hh; exact hr.wid v h hh
  · intro v h hh ha
    rw [hp] at hh ⊢
    by_cases hv : v = w
    · rw [if_pos hv] at hh; cases hh
    · rw [if_neg hv] at hh ⊢; exact hr.fwd v h hh ha
  · intro v h ha hh
    rw [hp] at hh ⊢
    by_cases hv : v = w
    · rw [if_pos hv] at hh; have := (hr.hid h ha).2; simp only [alloc] at hh; omega
    · rw [if_neg hv] at hh ⊢; exact hr.bwd v h ha hh

/-- Writing in place is invisible to enumerators if the holder has expired. -/
theorem rep_write {s : Sys C} {a : Spec.St C} (hr : Rep s a) (w : Which) (c : C) (hx : expired s w = true) : Rep (write s w c) ⟨Spec.upd a.val w c, a.enums⟩ := by
  refine ⟨?_, hr.inj, hr.ptr, ?_, hr.hid, hr.wid, hr.fwd, hr.bwd⟩
  · intro v
    simp only [write, setAt, Spec.upd]
    by_cases hv : v = w
    · simp [hv]
    · rw [if_neg hv, if_neg (fun he => hv (hr.inj v w he))]; exact hr.val v
  · simp only
    rw [hr.enums]
    refine (view_congr (s := s) (heap' := (write s w c).heap) (addrOf' := s.addrOf) ?_).symm
    intro x hal
    simp only [write, setAt]
    rw [if_neg]
    intro he
    have hw := hr.bwd w x hal he
    unfold expired at hx
    rw [hw] at hx
    simp only [hal] at hx
    cases hx

theorem expired_alloc (s : Sys C) (w : Which) (c : C) : expired (alloc s w c) w = true := by
  simp [expired, alloc, setSlot]

theorem upd_upd (f : Which → C) (w : Which) (c d : C) : Spec.upd (Spec.upd f w c) w d = Spec.upd f w d := by
  funext x; unfold Spec.upd; split <;> rfl

theorem rep_mutate {s : Sys C} {a : Spec.St C} (hr : Rep s a) (w : Which) (g : C → C) : Rep (mutate s w g) ⟨Spec.upd a.val w (g (a.val w)), a.enums⟩ := by
  unfold mutate copyOnWrite
  by_cases hx : expired s w = true
  · rw [if_pos hx]
    have := rep_write hr w (g (contents s w)) hx
    rw [show contents s w = a.val w from hr.val w] at this
    simpa [contents, hr.val w] using this
  · rw [if_neg hx]
    have h1 := rep_alloc hr w (contents s w)
    have h2 := rep_write h1 w (g (contents (alloc s w (contents s w)) w)) (expired_alloc _ _ _)
    have h3 : contents (alloc s w (contents s w)) w = a.val w := by
      have := h1.val w
      simp only [Spec.upd, if_true] at this
      rw [contents, this]; exact hr.val w
    rw [h3] at h2 ⊢
    simp only [upd_upd] at h2
    exact h2

theorem rep_put {s : Sys C} {a : Spec.St C} (hr : Rep s a) (w : Which) (c : C) :
    Rep (if (copyOnWrite s w c).2 then (copyOnWrite s w c).1 else write (copyOnWrite s w c).1 w c) ⟨Spec.upd a.val w c, a.enums⟩ := by
  unfold copyOnWrite
  by_cases hx : expired s w = true
  · rw [if_pos hx]; exact rep_write hr w c hx
  · rw [if_neg hx]; exact rep_alloc hr w c

/-- Enumerators that go away or new empty ones. -/
theorem rep_enums {s : Sys C} {a : Spec.St C} (hr : Rep s a) (es : List (Option (List Nat)))
    (hsub : ∀ h, alive { s with enums := es } h = true → alive s h = true) : Rep { s with enums := es } ⟨a.val, es.map (view s.heap s.addrOf)⟩ :=
  ⟨hr.val, hr.inj, hr.ptr, rfl, fun h hh => hr.hid h (hsub h hh), hr.wid, fun w h hh ha => hr.fwd w h hh (hsub h ha), fun w h ha hh => hr.bwd w h (hsub h ha) hh⟩

theorem map_set {β γ : Type} (f : β → γ) : ∀ (l : List β) (i : Nat) (v : β), (l.set i v).map f = (l.map f).set i (f v)
  | [], _, _ => rfl
  | _ :: _, 0, _ => rfl
  | a :: l, i + 1, v => by simp

/-- Owning a holder of `w`, which is (re)established first. -/
theorem rep_own {s : Sys C} {a : Spec.St C} (hr : Rep s a) {i : Nat} {hs : List Nat} (hi : s.enums[i]? = some (some hs)) (w : Which) (x : Nat)
    (hx : x < s.nextHolder) (hw : (s.slot w).weak = some x) (ha : s.addrOf x = (s.slot w).ptr) (huniq : ∀ v, (s.slot v).weak = some x → v = w) :
    Rep { s with enums := s.enums.set i (some (hs ++ [x])) } ⟨a.val, (s.enums.set i (some (hs ++ [x]))).map (view s.heap s.addrOf)⟩ := by
  have hal : ∀ h, alive { s with enums := s.enums.set i (some (hs ++ [x])) } h = true → alive s h = true ∨ h = x := by
    intro h hh
    obtain ⟨hs', hm, hh⟩ := alive_iff.mp hh
    rcases List.mem_or_eq_of_mem_set hm with hm | hm
    · exact Or.inl (alive_iff.mpr ⟨hs', hm, hh⟩)
    · cases hm
      rcases List.mem_append.mp hh with hh | hh
      · exact Or.inl (alive_iff.mpr ⟨hs, List.mem_of_getElem? hi, hh⟩)
      · exact Or.inr (by simpa using hh)
  refine ⟨hr.val, hr.inj, hr.ptr, rfl, ?_, hr.wid, ?_, ?_⟩
  · intro h hh
    rcases hal h hh with hh | rfl
    · exact hr.hid h hh
    · refine ⟨hx, ?_⟩
      simp only; rw [ha]; exact hr.ptr w
  · intro v h hv hh
    rcases hal h hh with hh | rfl
    · exact hr.fwd v h hv hh
    · rw [huniq v hv]; exact ha
  · intro v h hh he
    rcases hal h hh with hh | rfl
    · exact hr.bwd v h hh he
    · simp only at he
      rw [ha] at he
      rw [← hr.inj w v he]; exact hw

theorem spec_own {s : Sys C} {a : Spec.St C} (hr : Rep s a) {i : Nat} {hs : List Nat} (hi : s.enums[i]? = some (some hs)) {heap' : Nat → C} {addrOf' : Nat → Nat}
    (hv : s.enums.map (view heap' addrOf') = s.enums.map (view s.heap s.addrOf)) (w : Which) (x : Nat) (hx : heap' (addrOf' x) = a.val w) :
    (match a.enums[i]? with
      | some (some cs) => a.enums.set i (some (cs ++ [a.val w]))
      | _ => a.enums) = (s.enums.set i (some (hs ++ [x]))).map (view heap' addrOf') := by
  have h1 : a.enums[i]? = some (some (hs.map (fun h => heap' (addrOf' h)))) := by
    rw [hr.enums, ← hv, List.getElem?_map, hi]; rfl
  rw [h1, map_set, hr.enums, ← hv]
  simp only [view, Option.map_some, List.map_append, List.map_cons, List.map_nil, hx]

theorem step_rep {s : Sys C} {a : Spec.St C} (hr : Rep s a) (empty : C) (op : Op C) :
    Rep (step empty s op).1 (Spec.step empty a op).1 ∧ (step empty s op).2 = (Spec.step empty a op).2 := by
  cases op with
  | new =>
    refine ⟨?_, rfl⟩
    have := rep_enums hr (s.enums ++ [some []]) (by
      intro h hh
      obtain ⟨hs, hm, hh⟩ := alive_iff.mp hh
      rcases List.mem_append.mp hm with hm | hm
      · exact alive_iff.mpr ⟨hs, hm, hh⟩
      · simp only [List.mem_singleton, Option.some.injEq] at hm; rw [hm] at hh; cases hh)
    simpa [step, Spec.step, hr.enums, view] using this
  | close i =>
    refine ⟨?_, rfl⟩
    have := rep_enums hr (s.enums.set i none) (by
      intro h hh
      obtain ⟨hs, hm, hh⟩ := alive_iff.mp hh
      rcases List.mem_or_eq_of_mem_set hm with hm | hm
      · exact alive_iff.mpr ⟨hs, hm, hh⟩
      · cases hm)
    rw [map_set] at this
    simpa [step, Spec.step, hr.enums, view] using this
  | mutate w g => exact ⟨rep_mutate hr w g, rfl⟩
  | reset w => exact ⟨rep_put hr w empty, rfl⟩
  | assign w v =>
    refine ⟨?_, rfl⟩
    have := rep_put hr w (contents s v)
    rw [show contents s v = a.val v from hr.val v] at this
    simp only [step, Spec.step, assign]
    rw [show contents s v = a.val v from hr.val v]
    exact this
  | renew => exact ⟨rep_alloc (rep_alloc hr .added empty) .removed empty, rfl⟩
  | read w => exact ⟨hr, by simp only [step, Spec.step, contents]; rw [hr.val]⟩
  | readEnum i =>
    refine ⟨hr, ?_⟩
    simp only [step, Spec.step, hr.enums, List.getElem?_map]
    cases s.enums[i]? with
    | none => rfl
    | some e => cases e <;> rfl
  | acquire i w =>
    refine ⟨?_, by simp only [step, Spec.step]; split <;> rfl⟩
    simp only [step, Spec.step]
    cases hi : s.enums[i]? with
    | none =>
      have h1 : isOpen s.enums i = false := by unfold isOpen; rw [hi]
      have h2 : a.enums[i]? = none := by rw [hr.enums, List.getElem?_map, hi]; rfl
      rw [h1, h2]; exact hr
    | some e =>
      cases e with
      | none =>
        have h1 : isOpen s.enums i = false := by unfold isOpen; rw [hi]
        have h2 : a.enums[i]? = some none := by rw [hr.enums, List.getElem?_map, hi]; rfl
        rw [h1, h2]; exact hr
      | some hs =>
        have h1 : isOpen s.enums i = true := by unfold isOpen; rw [hi]
        rw [if_pos h1]
        have hown : ∀ x, own s.enums i x = s.enums.set i (some (hs ++ [x])) := by intro x; unfold own; rw [hi]
        -- a new holder
        have fresh : (∀ x, (s.slot w).weak = some x → alive s x = false) →
            Rep { s with addrOf := setAt s.addrOf s.nextHolder (s.slot w).ptr, nextHolder := s.nextHolder + 1, slot := setSlot s.slot w ⟨(s.slot w).ptr, some s.nextHolder⟩,
                         enums := own s.enums i s.nextHolder }
              ⟨a.val, match a.enums[i]? with
                | some (some cs) => a.enums.set i (some (cs ++ [a.val w]))
                | _ => a.enums⟩ := by
          intro hdead
          rw [hown]
          have hp : ∀ v, (setSlot s.slot w ⟨(s.slot w).ptr, some s.nextHolder⟩ v).ptr = (s.slot v).ptr := by
            intro v; unfold setSlot; split
            · rename_i hv; rw [hv]
            · rfl
          have hnew : alive s s.nextHolder = false := by
            cases hh : alive s s.nextHolder with
            | false => rfl
            | true => have := (hr.hid _ hh).1; omega
          have haddr : ∀ x, alive s x = true → setAt s.addrOf s.nextHolder (s.slot w).ptr x = s.addrOf x := by
            intro x hx
            unfold setAt
            rw [if_neg]
            intro e; rw [e, hnew] at hx; cases hx
          have hvw : s.enums.map (view s.heap (setAt s.addrOf s.nextHolder (s.slot w).ptr)) = s.enums.map (view s.heap s.addrOf) :=
            view_congr (fun x hx => by rw [haddr x hx])
          have hmid : Rep { s with addrOf := setAt s.addrOf s.nextHolder (s.slot w).ptr, nextHolder := s.nextHolder + 1, slot := setSlot s.slot w ⟨(s.slot w).ptr, some s.nextHolder⟩ } a := by
            refine ⟨?_, ?_, ?_, ?_, ?_, ?_, ?_, ?_⟩
            · intro v; simp only [hp]; exact hr.val v
            · intro v u; simp only [hp]; exact hr.inj v u
            · intro v; simp only [hp]; exact hr.ptr v
            · simp only; rw [hvw]; exact hr.enums
            · intro h hh
              have hh' : alive s h = true := hh
              have := hr.hid h hh'
              simp only
              rw [haddr h hh']
              exact ⟨by omega, this.2⟩
            · intro v h hv
              simp only [setSlot] at hv ⊢
              split at hv
              · simp only [Option.some.injEq] at hv; omega
              · have := hr.wid v h hv; omega
            · intro v h hv hh
              have hh' : alive s h = true := hh
              simp only [hp]
              rw [haddr h hh']
              simp only [setSlot] at hv
              split at hv
              · simp only [Option.some.injEq] at hv; rw [← hv, hnew] at hh'; cases hh'
              · exact hr.fwd v h hv hh'
            · intro v h hh hv
              have hh' : alive s h = true := hh
              simp only [hp] at hv
              rw [haddr h hh'] at hv
              have hb := hr.bwd v h hh' hv
              simp only [setSlot]
              split
              · rename_i he; rw [he] at hb; rw [hdead h hb] at hh'; cases hh'
              · exact hb
          have hlast := rep_own hmid hi w s.nextHolder (by simp) (by simp [setSlot]) (by simp [setAt, setSlot]) (by
            intro v hv
            simp only [setSlot] at hv
            split at hv
            · assumption
            · have := hr.wid v _ hv; omega)
          rw [spec_own hr hi hvw w s.nextHolder (by simp only [setAt, if_true]; exact hr.val w)]
          exact hlast
        unfold getHolder
        cases hw : (s.slot w).weak with
        | none => exact fresh (fun x hx => by rw [hw] at hx; cases hx)
        | some x =>
          simp only
          by_cases hal : alive s x = true
          · rw [if_pos hal, hown]
            have ha := hr.fwd w x hw hal
            rw [spec_own hr hi rfl w x (by rw [ha]; exact hr.val w)]
            refine rep_own hr hi w x (hr.wid w x hw) hw ha ?_
            intro v hv
            have := hr.fwd v x hv hal
            exact hr.inj v w (by rw [← this, ha])
          · rw [if_neg hal]
            exact fresh (fun y hy => by rw [hw] at hy; cases hy; simpa using hal)

theorem run_rep (empty : C) : ∀ (ops : List (Op C)) {s : Sys C} {a : Spec.St C}, Rep s a → run empty s ops = Spec.run empty a ops
  | [], _, _, _ => rfl
  | op :: ops, s, a, hr => by
    obtain ⟨h1, h2⟩ := step_rep hr empty op
    simp only [run, Spec.run]
    rw [h2, run_rep empty ops h1]

/-- C29 (snapshots). In every interleaving of modifications, commits, reverts and new transactions with making, reading and destroying enumerators, the
shared representation is indistinguishable from the one where every enumerator recorded the contents at the moment it asked for them: no modification,
whenever it happens, is seen by an enumerator made before, and every modification is seen by those made after it. -/
theorem enumerators_are_snapshots (empty : C) (ops : List (Op C)) : run empty (init empty) ops = Spec.run empty ⟨fun _ => empty, []⟩ ops :=
  run_rep empty ops (rep_init empty)

end

/-! Non-vacuity: an enumerator survives a commit and a revert; the second modification happens in place. -/
example : run ([] : List Nat) (init []) [.mutate .items (1 :: ·), .new, .acquire 0 .items, .mutate .items (2 :: ·), .mutate .items (3 :: ·), .new, .acquire 1 .items, .acquire 1 .added,
      .renew, .reset .items, .readEnum 0, .readEnum 1, .read .items, .close 0, .readEnum 0] =
    [.unit, .unit, .unit, .unit, .unit, .unit, .unit, .unit, .unit, .unit, .enumerated (some [[1]]), .enumerated (some [[3, 2, 1], []]), .contents [], .unit,
      .enumerated none] := by with_unfolding_all rfl

end Verif.Trans.Snap
