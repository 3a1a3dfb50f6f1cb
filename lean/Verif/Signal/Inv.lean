import Verif.Signal.Model
/-
The invariant of the model of `signal`.
-/
namespace Verif.Signal
open Verif.Thread.Life (Impl IInv)

theorem set_self {α : Type} (f : Nat → α) (i : Nat) (x : α) : set f i x i = x := by unfold set; rw [if_pos rfl]
theorem set_ne {α : Type} (f : Nat → α) {i j : Nat} (x : α) (h : j ≠ i) : set f i x j = f j := by unfold set; rw [if_neg h]

/-- The frame keeps the mutex of the signal locked. -/
def Frame.holds : Frame → Bool
  | .lock => true
  | .emit _ _ _ _ lk => lk
  | .connecting _ => true
  | _ => false

def Frame.isH (h : Nat) : Frame → Bool
  | .handler k _ => k == h
  | _ => false

def Frame.isC (h : Nat) : Frame → Bool
  | .connecting k => k == h
  | _ => false

def Frame.isR (h : Nat) : Frame → Bool
  | .releasing k => k == h
  | _ => false

/-! ### The mutex -/

structure Mtx (owner : Option Nat) (depth : Nat) (st : Nat → List Frame) : Prop where
  own : ∀ t, (st t).countP Frame.holds = if owner = some t then depth else 0
  pos : ∀ t, owner = some t → 0 < depth
  free : owner = none → depth = 0

theorem Mtx.same {o d st} (m : Mtx o d st) (t : Nat) (l : List Frame) (h : l.countP Frame.holds = (st t).countP Frame.holds) : Mtx o d (set st t l) :=
  ⟨fun u => by
    by_cases e : u = t
    · rw [e, set_self, h]; exact m.own t
    · rw [set_ne _ _ e]; exact m.own u, m.pos, m.free⟩

theorem Mtx.acq {o : Option Nat} {d st} (m : Mtx o d st) (t : Nat) (l : List Frame) (ho : o = none ∨ o = some t) (h : l.countP Frame.holds = (st t).countP Frame.holds + 1) :
    Mtx (some t) (d + 1) (set st t l) where
  own := fun u => by
    by_cases e : u = t
    · rw [e, set_self, h, m.own t, if_pos rfl]
      rcases ho with ho | ho
      · rw [m.free ho]; simp
      · rw [if_pos ho]
    · have h1 : o ≠ some u := by
        rcases ho with ho | ho
        · rw [ho]; exact fun e => nomatch e
        · rw [ho]; intro e'; injection e' with e'; exact e e'.symm
      have h2 : some t ≠ some u := by intro e'; injection e' with e'; exact e e'.symm
      rw [set_ne _ _ e, m.own u, if_neg h1, if_neg h2]
  pos := fun _ _ => Nat.succ_pos _
  free := fun e => nomatch e

theorem Mtx.rel {o : Option Nat} {d st} (m : Mtx o d st) (t : Nat) (l : List Frame) (h : (st t).countP Frame.holds = l.countP Frame.holds + 1) :
    o = some t ∧ Mtx (if d - 1 = 0 then none else o) (d - 1) (set st t l) := by
  have h1 := m.own t
  have ho : o = some t := by
    by_cases e : o = some t
    · exact e
    · rw [if_neg e] at h1; omega
  rw [if_pos ho] at h1
  refine ⟨ho, ⟨fun u => ?_, fun u => ?_, fun e => ?_⟩⟩
  · by_cases e : u = t
    · rw [e, set_self]
      by_cases hd : d - 1 = 0
      · rw [if_pos hd, if_neg (fun e => nomatch e)]; omega
      · rw [if_neg hd, if_pos ho]; omega
    · rw [set_ne _ _ e, m.own u]
      have : o ≠ some u := by rw [ho]; intro e'; injection e' with e'; exact e e'.symm
      rw [if_neg this]
      by_cases hd : d - 1 = 0
      · rw [if_pos hd, if_neg (fun e => nomatch e)]
      · rw [if_neg hd, if_neg this]
  · by_cases hd : d - 1 = 0
    · rw [if_pos hd]; exact fun e => nomatch e
    · intro _; omega
  · by_cases hd : d - 1 = 0
    · exact hd
    · rw [if_neg hd, ho] at e; cases e

/-! ### The tokens -/

structure Lif (life : Nat → Impl) (st : Nat → List Frame) (phase : Nat → Phase) : Prop where
  inv : ∀ h, IInv (life h)
  run : ∀ h t, (life h).running t = (st t).countP (Frame.isH h)
  alive : ∀ h, (life h).alive = false ↔ ∃ t, phase h = .gone t
  gone : ∀ h t u, phase h = .gone t → (life h).running u ≠ 0 → u = t

theorem Lif.same {li st ph} (m : Lif li st ph) (t : Nat) (l : List Frame) (ph' : Nat → Phase) (hl : ∀ h, l.countP (Frame.isH h) = (st t).countP (Frame.isH h))
    (hp : ∀ h u, ph' h = .gone u ↔ ph h = .gone u) : Lif li (set st t l) ph' where
  inv := m.inv
  run := fun h u => by
    by_cases e : u = t
    · rw [e, set_self, hl]; exact m.run h t
    · rw [set_ne _ _ e]; exact m.run h u
  alive := fun h => by rw [m.alive]; exact ⟨fun ⟨u, e⟩ => ⟨u, (hp h u).2 e⟩, fun ⟨u, e⟩ => ⟨u, (hp h u).1 e⟩⟩
  gone := fun h u w e => m.gone h u w ((hp h u).1 e)

/-- One token changes together with the number of guards of it on the stack of one thread. -/
theorem Lif.one {li st ph} (m : Lif li st ph) (t h : Nat) (l : List Frame) (x : Impl) (hx : IInv x) (hn : ∀ k, k ≠ h → l.countP (Frame.isH k) = (st t).countP (Frame.isH k))
    (hr : ∀ u, x.running u = if u = t then l.countP (Frame.isH h) else (li h).running u) (ha : x.alive = (li h).alive) (hg : ∀ u, ph h = .gone u → x.running t ≠ 0 → t = u) :
    Lif (set li h x) (set st t l) ph where
  inv := fun k => by
    by_cases e : k = h
    · rw [e, set_self]; exact hx
    · rw [set_ne _ _ e]; exact m.inv k
  run := fun k u => by
    by_cases e : k = h
    · rw [e, set_self, hr]
      by_cases e' : u = t
      · rw [if_pos e', e', set_self]
      · rw [if_neg e', set_ne _ _ e']; exact m.run h u
    · rw [set_ne _ _ e]
      by_cases e' : u = t
      · rw [e', set_self, hn k e]; exact m.run k t
      · rw [set_ne _ _ e']; exact m.run k u
  alive := fun k => by
    by_cases e : k = h
    · rw [e, set_self, ha]; exact m.alive h
    · rw [set_ne _ _ e]; exact m.alive k
  gone := fun k u w e hw => by
    by_cases e' : k = h
    · rw [e', set_self] at hw
      rw [e'] at e
      by_cases e2 : w = t
      · rw [e2] at hw ⊢; exact hg u e hw
      · rw [hr, if_neg e2] at hw; exact m.gone h u w e hw
    · rw [set_ne _ _ e'] at hw; exact m.gone k u w e hw

theorem running_others {x : Impl} (h : IInv x) {t : Nat} (hl : x.lockable t = true) : ∀ u, u ≠ t → x.running u = 0 := by
  intro u hu
  refine h.others u (fun e => ?_)
  rcases (Verif.Thread.Life.lockable_iff x t).1 hl with e' | e' <;> rw [e'] at e
  · cases e
  · injection e with e; exact hu e.symm

theorem Lif.start {li st ph} (m : Lif li st ph) {t h : Nat} {l : List Frame} {x : Impl} (hs : (li h).tryStart t = some (true, x)) (hl : ∀ k, l.countP (Frame.isH k) = (st t).countP (Frame.isH k) + if k = h then 1 else 0) :
    Lif (set li h x) (set st t l) ph ∧ (∀ u, ph h ≠ .gone u) := by
  have hx := Verif.Thread.Life.tryStart_inv (m.inv h) hs
  unfold Impl.tryStart at hs
  by_cases hk : (li h).lockable t = true
  · rw [if_pos hk] at hs
    by_cases ha : (li h).alive = true
    · rw [if_pos ha] at hs; injection hs with hs; injection hs with _ hs; subst hs
      have hng : ∀ u, ph h ≠ .gone u := fun u e => by have := (m.alive h).2 ⟨u, e⟩; rw [ha] at this; cases this
      refine ⟨m.one t h l _ hx (fun k e => by rw [hl, if_neg e]; rfl) (fun u => ?_) rfl (fun u e => absurd e (hng u)), hng⟩
      simp only []
      by_cases e : u = t
      · rw [if_pos e, e, Verif.Thread.Life.set_self, hl, if_pos rfl, m.run]
      · rw [if_neg e, Verif.Thread.Life.set_ne _ _ e]
    · rw [if_neg ha] at hs; injection hs with hs; injection hs with h1; cases h1
  · rw [if_neg hk] at hs; cases hs

theorem Lif.refuse {li st ph} (m : Lif li st ph) {t h : Nat} {l : List Frame} {x : Impl} (hs : (li h).tryStart t = some (false, x)) (hl : ∀ k, l.countP (Frame.isH k) = (st t).countP (Frame.isH k)) :
    Lif (set li h x) (set st t l) ph ∧ ∃ u, ph h = .gone u := by
  unfold Impl.tryStart at hs
  by_cases hk : (li h).lockable t = true
  · rw [if_pos hk] at hs
    by_cases ha : (li h).alive = true
    · rw [if_pos ha] at hs; injection hs with hs; injection hs with h1; cases h1
    · rw [if_neg ha] at hs; injection hs with hs; injection hs with _ hs; subst hs
      have e : set li h (li h) = li := by funext k; by_cases e : k = h
                                          · rw [e, set_self]
                                          · rw [set_ne _ _ e]
      rw [e]
      exact ⟨m.same t l ph hl (fun _ _ => Iff.rfl), (m.alive h).1 (by simpa using ha)⟩
  · rw [if_neg hk] at hs; cases hs

theorem Lif.finish {li st ph} (m : Lif li st ph) {t h : Nat} {l : List Frame} {x : Impl} (hs : (li h).finish t = some x) (hl : ∀ k, (st t).countP (Frame.isH k) = l.countP (Frame.isH k) + if k = h then 1 else 0) :
    Lif (set li h x) (set st t l) ph := by
  have hx := Verif.Thread.Life.finish_inv (m.inv h) hs
  have hm := (Verif.Thread.Life.finish_mono hs).2
  have hrun : x.alive = (li h).alive ∧ x.running = Verif.Thread.Life.set (li h).running t ((li h).running t - 1) := by
    unfold Impl.finish at hs
    split at hs
    · injection hs with hs; subst hs
      unfold Impl.unlock; split <;> exact ⟨rfl, rfl⟩
    · cases hs
  refine m.one t h l x hx (fun k e => by rw [hl, if_neg e]; rfl) (fun u => ?_) hrun.1 (fun u e hw => m.gone h u t e (fun e' => hw (Nat.le_zero.1 (e' ▸ hm t))))
  rw [hrun.2]
  by_cases e : u = t
  · rw [if_pos e, e, Verif.Thread.Life.set_self, m.run, hl, if_pos rfl]; rfl
  · rw [if_neg e, Verif.Thread.Life.set_ne _ _ e]

theorem Lif.kill {li st ph} (m : Lif li st ph) {t h : Nat} {l : List Frame} {x : Impl} (hs : (li h).kill t = some x) (hl : ∀ k, l.countP (Frame.isH k) = (st t).countP (Frame.isH k)) (hng : ∀ u, ph h ≠ .gone u) :
    Lif (set li h x) (set st t l) (set ph h (.gone t)) := by
  obtain ⟨hx, ha, hr⟩ := Verif.Thread.Life.kill_inv (m.inv h) hs
  have hk : (li h).lockable t = true := by
    unfold Impl.kill at hs
    split at hs
    · assumption
    · cases hs
  refine ⟨fun k => ?_, fun k u => ?_, fun k => ?_, fun k u w e hw => ?_⟩
  · by_cases e : k = h
    · rw [e, set_self]; exact hx
    · rw [set_ne _ _ e]; exact m.inv k
  · have hq : (set li h x k).running u = (li k).running u := by
      by_cases e : k = h
      · rw [e, set_self, hr]
      · rw [set_ne _ _ e]
    rw [hq, m.run]
    by_cases e : u = t
    · rw [e, set_self, hl]
    · rw [set_ne _ _ e]
  · by_cases e : k = h
    · rw [e, set_self, set_self, ha]; exact ⟨fun _ => ⟨t, rfl⟩, fun _ => rfl⟩
    · rw [set_ne _ _ e, set_ne _ _ e]; exact m.alive k
  · by_cases e' : k = h
    · rw [e', set_self] at e hw
      injection e with e
      rw [hr] at hw
      rw [← e]
      exact Classical.byContradiction fun hn => hw (running_others (m.inv h) hk w hn)
    · rw [set_ne _ _ e'] at e hw; exact m.gone k u w e hw

/-! ### The connections -/

structure Con (ph : Nat → Phase) (st : Nat → List Frame) (handlers order : List Nat) : Prop where
  conn : ∀ h t, (st t).countP (Frame.isC h) = if ph h = .connecting t then 1 else 0
  rel : ∀ h t, (st t).countP (Frame.isR h) = if ph h = .removed t then 1 else 0
  lst : handlers = order.filter fun h => decide (ph h = .connected)
  nodup : order.Nodup
  mem : ∀ h, h ∈ order ↔ ph h ≠ .fresh ∧ ∀ t, ph h ≠ .connecting t

theorem Con.same {ph st hs od} (m : Con ph st hs od) (t : Nat) (l : List Frame) (hc : ∀ h, l.countP (Frame.isC h) = (st t).countP (Frame.isC h))
    (hr : ∀ h, l.countP (Frame.isR h) = (st t).countP (Frame.isR h)) : Con ph (set st t l) hs od :=
  { m with
    conn := fun h u => by
      by_cases e : u = t
      · rw [e, set_self, hc]; exact m.conn h t
      · rw [set_ne _ _ e]; exact m.conn h u
    rel := fun h u => by
      by_cases e : u = t
      · rw [e, set_self, hr]; exact m.rel h t
      · rw [set_ne _ _ e]; exact m.rel h u }

/-- A connection goes to its next phase. -/
theorem Con.move {ph st hs od} (m : Con ph st hs od) (t h : Nat) (l : List Frame) (p : Phase)
    (hc : ∀ k, l.countP (Frame.isC k) = if k = h then (if p = .connecting t then 1 else 0) else (st t).countP (Frame.isC k))
    (hr : ∀ k, l.countP (Frame.isR k) = if k = h then (if p = .removed t then 1 else 0) else (st t).countP (Frame.isR k))
    (hco : ∀ u, u ≠ t → ph h ≠ .connecting u ∧ p ≠ .connecting u) (hre : ∀ u, u ≠ t → ph h ≠ .removed u ∧ p ≠ .removed u)
    (od' hs' : List Nat) (hl : hs' = od'.filter fun k => decide (set ph h p k = .connected)) (hn : od'.Nodup) (hm : ∀ k, k ∈ od' ↔ set ph h p k ≠ .fresh ∧ ∀ t, set ph h p k ≠ .connecting t) :
    Con (set ph h p) (set st t l) hs' od' where
  conn := fun k u => by
    by_cases e : u = t
    · rw [e, set_self, hc]
      by_cases e' : k = h
      · rw [if_pos e', e', set_self]
      · rw [if_neg e', set_ne _ _ e']; exact m.conn k t
    · rw [set_ne _ _ e, m.conn]
      by_cases e' : k = h
      · rw [e', set_self, if_neg (hco u e).1, if_neg (hco u e).2]
      · rw [set_ne _ _ e']
  rel := fun k u => by
    by_cases e : u = t
    · rw [e, set_self, hr]
      by_cases e' : k = h
      · rw [if_pos e', e', set_self]
      · rw [if_neg e', set_ne _ _ e']; exact m.rel k t
    · rw [set_ne _ _ e, m.rel]
      by_cases e' : k = h
      · rw [e', set_self, if_neg (hre u e).1, if_neg (hre u e).2]
      · rw [set_ne _ _ e']
  lst := hl
  nodup := hn
  mem := hm

/-! ### The emissions -/

structure EInv (ph : Nat → Phase) (order snap calls todo : List Nat) : Prop where
  nodup : snap.Nodup
  sub : (calls ++ todo).Sublist snap
  all : ∀ h ∈ snap, h ∈ calls ∨ h ∈ todo ∨ ∃ t, ph h = .gone t
  old : ∀ h ∈ snap, h ∈ order

def Emi (st : Nat → List Frame) (ph : Nat → Phase) (order : List Nat) : Prop :=
  ∀ t v snap calls todo lk, Frame.emit v snap calls todo lk ∈ st t → EInv ph order snap calls todo

theorem EInv.mono {ph ph' od od' snap calls todo} (e : EInv ph od snap calls todo) (hp : ∀ h t, ph h = .gone t → ph' h = .gone t) (ho : ∀ h, h ∈ od → h ∈ od') : EInv ph' od' snap calls todo :=
  { e with all := fun h hh => (e.all h hh).imp id (Or.imp id fun ⟨t, e⟩ => ⟨t, hp h t e⟩), old := fun h hh => ho h (e.old h hh) }

/-- Emissions on the new stack were on the old one, or are in order. -/
theorem Emi.upd {st ph od} (m : Emi st ph od) (t : Nat) (l : List Frame) {ph' : Nat → Phase} {od' : List Nat} (hp : ∀ h t, ph h = .gone t → ph' h = .gone t) (ho : ∀ h, h ∈ od → h ∈ od')
    (hl : ∀ v snap calls todo lk, Frame.emit v snap calls todo lk ∈ l → Frame.emit v snap calls todo lk ∈ st t ∨ EInv ph' od' snap calls todo) : Emi (set st t l) ph' od' := by
  intro u v snap calls todo lk hm
  by_cases e : u = t
  · rw [e, set_self] at hm
    rcases hl _ _ _ _ _ hm with h | h
    · exact (m _ _ _ _ _ _ h).mono hp ho
    · exact h
  · rw [set_ne _ _ e] at hm
    exact (m _ _ _ _ _ _ hm).mono hp ho

structure Inv (s : State) : Prop where
  mtx : Mtx s.owner s.depth s.stacks
  lif : Lif s.life s.stacks s.phase
  con : Con s.phase s.stacks s.handlers s.order
  emi : Emi s.stacks s.phase s.order

theorem init_inv (v : Nat) : Inv (init v) where
  mtx := ⟨fun _ => rfl, (fun _ e => nomatch e), fun _ => rfl⟩
  lif := ⟨fun _ => Verif.Thread.Life.new_inv, fun _ _ => rfl, fun _ => ⟨(fun e => nomatch e), fun ⟨_, e⟩ => nomatch e⟩, fun _ _ _ e => nomatch e⟩
  con := ⟨fun _ _ => rfl, fun _ _ => rfl, rfl, List.nodup_nil, fun _ => ⟨(fun e => nomatch e), fun e => absurd rfl e.1⟩⟩
  emi := fun _ _ _ _ _ _ e => nomatch e

theorem lockable_iff (s : State) (t : Nat) : lockable s t = true ↔ s.owner = none ∨ s.owner = some t := by simp [lockable]

theorem handlers_nodup {s : State} (h : Inv s) : s.handlers.Nodup := by rw [h.con.lst]; exact h.con.nodup.filter _
theorem handlers_iff {s : State} (h : Inv s) (k : Nat) : k ∈ s.handlers ↔ s.phase k = .connected := by
  rw [h.con.lst, List.mem_filter, h.con.mem, decide_eq_true_eq]
  exact ⟨fun e => e.2, fun e => ⟨⟨(by rw [e]; exact (fun e => nomatch e)), (fun t => by rw [e]; exact fun e => nomatch e)⟩, e⟩⟩

theorem emission_new {s : State} (h : Inv s) : EInv s.phase s.order s.handlers [] s.handlers :=
  ⟨handlers_nodup h, List.Sublist.refl _, fun _ hk => Or.inr (Or.inl hk), fun k hk => by rw [h.con.lst] at hk; exact (List.mem_filter.1 hk).1⟩

theorem step_inv {cfg : Cfg} {s s' : State} {a : Act} (h : Inv s) (hs : step cfg s a = some s') : Inv s' := by
  have hen := emission_new h
  cases a with
  | lock t =>
    simp only [step, lockStep] at hs
    split at hs
    · rename_i hc
      injection hs with hs; subst hs
      exact ⟨h.mtx.acq t _ ((lockable_iff s t).1 hc.2) (by simp [acquire, List.countP_cons, Frame.holds]), h.lif.same t _ _ (fun k => by simp [acquire, List.countP_cons, Frame.isH]) (fun _ _ => Iff.rfl),
        h.con.same t _ (fun k => by simp [acquire, List.countP_cons, Frame.isC]) (fun k => by simp [acquire, List.countP_cons, Frame.isR]),
        h.emi.upd t _ (fun _ _ e => e) (fun _ e => e) (fun v a b c d e => by
          rcases List.mem_cons.1 e with e | e
          · cases e
          · exact Or.inl e)⟩
    · cases hs
  | unlock t =>
    simp only [step, unlockStep] at hs
    split at hs
    · rename_i rest hst
      injection hs with hs; subst hs
      refine ⟨(h.mtx.rel t _ (by rw [hst]; simp [List.countP_cons, Frame.holds])).2, h.lif.same t _ _ (fun k => by rw [hst]; simp [List.countP_cons, Frame.isH]) (fun _ _ => Iff.rfl),
        h.con.same t _ (fun k => by rw [hst]; simp [List.countP_cons, Frame.isC]) (fun k => by rw [hst]; simp [List.countP_cons, Frame.isR]),
        h.emi.upd t _ (fun _ _ e => e) (fun _ e => e) (fun v a b c d e => Or.inl (List.mem_of_mem_tail e))⟩
    · cases hs
  | emit t v =>
    simp only [step, emitStep] at hs
    split at hs
    · injection hs with hs; subst hs
      exact ⟨h.mtx.same t _ (by simp [acquire, List.countP_cons, Frame.holds]), h.lif.same t _ _ (fun k => by simp [acquire, List.countP_cons, Frame.isH]) (fun _ _ => Iff.rfl),
        h.con.same t _ (fun k => by simp [acquire, List.countP_cons, Frame.isC]) (fun k => by simp [acquire, List.countP_cons, Frame.isR]),
        h.emi.upd t _ (fun _ _ e => e) (fun _ e => e) (fun v a b c d e => by
          rcases List.mem_cons.1 e with e | e
          · injection e with _ e1 e2 e3; subst e1 e2 e3; exact Or.inr hen
          · exact Or.inl e)⟩
    · cases hs
  | set t v =>
    simp only [step, setStep] at hs
    split at hs
    · rename_i hc
      split at hs
      · injection hs with hs; subst hs; exact h
      · injection hs with hs; subst hs
        exact ⟨h.mtx.acq t _ ((lockable_iff s t).1 hc.2) (by simp [acquire, List.countP_cons, Frame.holds]), h.lif.same t _ _ (fun k => by simp [acquire, List.countP_cons, Frame.isH]) (fun _ _ => Iff.rfl),
          h.con.same t _ (fun k => by simp [acquire, List.countP_cons, Frame.isC]) (fun k => by simp [acquire, List.countP_cons, Frame.isR]),
          h.emi.upd t _ (fun _ _ e => e) (fun _ e => e) (fun v a b c d e => by
            rcases List.mem_cons.1 e with e | e
            · injection e with _ e1 e2 e3; subst e1 e2 e3; exact Or.inr hen
            · exact Or.inl e)⟩
    · cases hs
  | next t =>
    simp only [step, nextStep] at hs
    split at hs
    · rename_i v snap calls k todo lk rest hst
      have he : EInv s.phase s.order snap calls (k :: todo) := h.emi t v snap calls (k :: todo) lk (by rw [hst]; exact List.mem_cons_self)
      split at hs
      · cases hs
      · rename_i m hm
        injection hs with hs; subst hs
        obtain ⟨hl, _⟩ := h.lif.start (l := .handler k v :: .emit v snap (calls ++ [k]) todo lk :: rest) hm (fun j => by
          rw [hst]; simp only [List.countP_cons, Frame.isH]
          by_cases e : j = k
          · subst e; simp
          · simp [e, Ne.symm e])
        refine ⟨h.mtx.same t _ (by rw [hst]; cases lk <;> simp [List.countP_cons, Frame.holds]), hl, h.con.same t _ (fun j => by rw [hst]; simp [List.countP_cons, Frame.isC]) (fun j => by rw [hst]; simp [List.countP_cons, Frame.isR]),
          h.emi.upd t _ (fun _ _ e => e) (fun _ e => e) (fun v' a b c d e => ?_)⟩
        rcases List.mem_cons.1 e with e | e
        · cases e
        · rcases List.mem_cons.1 e with e | e
          · injection e with _ e1 e2 e3; subst e1 e2 e3
            refine Or.inr { he with sub := by simpa using he.sub, all := fun j hj => ?_ }
            rcases he.all j hj with e | e | e
            · exact Or.inl (List.mem_append_left _ e)
            · rcases List.mem_cons.1 e with e | e
              · exact Or.inl (by rw [e]; simp)
              · exact Or.inr (Or.inl e)
            · exact Or.inr (Or.inr e)
          · exact Or.inl (by rw [hst]; exact List.mem_cons_of_mem _ e)
      · rename_i m hm
        injection hs with hs; subst hs
        obtain ⟨hl, hg⟩ := h.lif.refuse (l := .emit v snap calls todo lk :: rest) hm (fun j => by rw [hst]; simp [List.countP_cons, Frame.isH])
        refine ⟨h.mtx.same t _ (by rw [hst]; cases lk <;> simp [List.countP_cons, Frame.holds]), hl, h.con.same t _ (fun j => by rw [hst]; simp [List.countP_cons, Frame.isC]) (fun j => by rw [hst]; simp [List.countP_cons, Frame.isR]),
          h.emi.upd t _ (fun _ _ e => e) (fun _ e => e) (fun v' a b c d e => ?_)⟩
        rcases List.mem_cons.1 e with e | e
        · injection e with _ e1 e2 e3; subst e1 e2 e3
          refine Or.inr { he with sub := List.Sublist.trans (List.Sublist.append (List.Sublist.refl _) (List.sublist_cons_self _ _)) he.sub, all := fun j hj => ?_ }
          rcases he.all j hj with e | e | e
          · exact Or.inl e
          · rcases List.mem_cons.1 e with e | e
            · exact Or.inr (Or.inr (by rw [e]; exact hg))
            · exact Or.inr (Or.inl e)
          · exact Or.inr (Or.inr e)
        · exact Or.inl (by rw [hst]; exact List.mem_cons_of_mem _ e)
    · rename_i v snap calls lk rest hst
      injection hs with hs; subst hs
      have hl := h.lif.same t (s.stacks t).tail s.phase (fun k => by rw [hst]; simp [List.countP_cons, Frame.isH]) (fun _ _ => Iff.rfl)
      have hc := h.con.same t (s.stacks t).tail (fun k => by rw [hst]; simp [List.countP_cons, Frame.isC]) (fun k => by rw [hst]; simp [List.countP_cons, Frame.isR])
      have he := h.emi.upd t (s.stacks t).tail (fun _ _ e => e) (fun _ e => e) (fun v a b c d e => Or.inl (List.mem_of_mem_tail e))
      cases lk with
      | true => exact ⟨(h.mtx.rel t _ (by rw [hst]; simp [List.countP_cons, Frame.holds])).2, hl, hc, he⟩
      | false => exact ⟨h.mtx.same t _ (by rw [hst]; simp [List.countP_cons, Frame.holds]), hl, hc, he⟩
    · cases hs
  | ret t =>
    simp only [step, retStep] at hs
    split at hs
    · rename_i k v rest hst
      split at hs
      · cases hs
      · rename_i m hm
        injection hs with hs; subst hs
        refine ⟨h.mtx.same t _ (by rw [hst]; simp [List.countP_cons, Frame.holds]), h.lif.finish hm (fun j => ?_), h.con.same t _ (fun j => by rw [hst]; simp [List.countP_cons, Frame.isC]) (fun j => by rw [hst]; simp [List.countP_cons, Frame.isR]),
          h.emi.upd t _ (fun _ _ e => e) (fun _ e => e) (fun v' a b c d e => Or.inl (List.mem_of_mem_tail e))⟩
        rw [hst]; simp only [List.countP_cons, Frame.isH, List.tail_cons]
        by_cases e : j = k
        · subst e; simp
        · simp [e, Ne.symm e]
    · cases hs
  | connect t k b =>
    simp only [step, connectStep] at hs
    split at hs
    · rename_i hc
      injection hs with hs; subst hs
      have hph := hc.2.2
      refine ⟨h.mtx.acq t _ ((lockable_iff s t).1 hc.2.1) (by simp [acquire, List.countP_cons, Frame.holds]), h.lif.same t _ _ (fun k => by simp [acquire, List.countP_cons, Frame.isH]) (fun j u => ?_),
        h.con.move t k _ (.connecting t) (fun j => ?_) (fun j => ?_) (fun u e => ⟨by rw [hph]; exact (fun e => nomatch e), fun e' => by injection e' with e'; exact e e'.symm⟩)
          (fun u e => ⟨by rw [hph]; exact (fun e => nomatch e), fun e' => nomatch e'⟩) _ _ ?_ h.con.nodup (fun j => ?_),
        h.emi.upd t _ (fun j u e => ?_) (fun _ e => e) (fun v a b c d e => ?_)⟩
      · show Verif.Signal.set s.phase k (.connecting t) j = _ ↔ _
        by_cases e : j = k
        · rw [e, set_self, hph]; exact ⟨(fun e => nomatch e), fun e => nomatch e⟩
        · rw [set_ne _ _ e]
      · simp only [acquire, List.countP_cons, Frame.isC]
        by_cases e : j = k
        · subst e; rw [h.con.conn, hph]; simp
        · simp [e, Ne.symm e]
      · simp only [acquire, List.countP_cons, Frame.isR]
        by_cases e : j = k
        · subst e; rw [h.con.rel, hph]; simp
        · simp [e]
      · rw [show (push (acquire s t) t (.connecting k)).handlers = s.handlers from rfl, h.con.lst]
        apply List.filter_congr
        intro j hj
        have : j ≠ k := by intro e; subst e; exact ((h.con.mem j).1 hj).1 hph
        rw [set_ne _ _ this]
      · show j ∈ s.order ↔ _
        by_cases e : j = k
        · subst e; rw [set_self]; exact ⟨fun e => absurd hph ((h.con.mem j).1 e).1, fun e => absurd rfl (e.2 t)⟩
        · rw [set_ne _ _ e]; exact h.con.mem j
      · show Verif.Signal.set s.phase k (.connecting t) j = _
        by_cases e' : j = k
        · rw [e', hph] at e; cases e
        · rw [set_ne _ _ e']; exact e
      · rcases List.mem_cons.1 e with e | e
        · cases e
        · exact Or.inl e
    · cases hs
  | connected t =>
    simp only [step, connectedStep] at hs
    split at hs
    · rename_i k rest hst
      injection hs with hs; subst hs
      have hph : s.phase k = .connecting t := by
        have := h.con.conn k t
        rw [hst] at this
        simp only [List.countP_cons, Frame.isC, beq_self_eq_true, if_true] at this
        split at this
        · assumption
        · omega
      have hnk : k ∉ s.order := fun e => ((h.con.mem k).1 e).2 t hph
      refine ⟨(h.mtx.rel t _ (by rw [hst]; simp [List.countP_cons, Frame.holds])).2, h.lif.same t _ _ (fun j => by rw [hst]; simp [List.countP_cons, Frame.isH]) (fun j u => ?_),
        h.con.move t k _ .connected (fun j => ?_) (fun j => ?_) (fun u e => ⟨by rw [hph]; intro e'; injection e' with e'; exact e e'.symm, fun e => nomatch e⟩)
          (fun u e => ⟨by rw [hph]; exact (fun e => nomatch e), fun e' => nomatch e'⟩) _ _ ?_ ?_ (fun j => ?_),
        h.emi.upd t _ (fun j u e => ?_) (fun j e => List.mem_append_left _ e) (fun v a b c d e => Or.inl (List.mem_of_mem_tail e))⟩
      · show Verif.Signal.set s.phase k .connected j = _ ↔ _
        by_cases e : j = k
        · rw [e, set_self, hph]; exact ⟨(fun e => nomatch e), fun e => nomatch e⟩
        · rw [set_ne _ _ e]
      · have := h.con.conn j t
        rw [hst] at this ⊢
        simp only [List.countP_cons, Frame.isC, List.tail_cons] at this ⊢
        by_cases e : j = k
        · subst e; rw [hph] at this; simp at this; simp; exact this
        · simp [e, Ne.symm e]
      · have := h.con.rel j t
        rw [hst] at this ⊢
        simp only [List.countP_cons, Frame.isR, List.tail_cons] at this ⊢
        by_cases e : j = k
        · subst e; rw [hph] at this; simp at this; simp; exact this
        · simp [e]
      · show s.handlers ++ [k] = (s.order ++ [k]).filter _
        rw [List.filter_append, List.filter_cons, set_self, if_pos (by simp), List.filter_nil, h.con.lst]
        congr 1
        apply List.filter_congr
        intro j hj
        have : j ≠ k := by intro e; subst e; exact hnk hj
        rw [set_ne _ _ this]
      · show (s.order ++ [k]).Nodup
        rw [List.nodup_append]
        exact ⟨h.con.nodup, by simp, fun a ha b hb e => by rw [List.mem_singleton] at hb; subst hb; subst e; exact hnk ha⟩
      · show j ∈ s.order ++ [k] ↔ _
        rw [List.mem_append, List.mem_singleton]
        by_cases e : j = k
        · subst e; rw [set_self]; exact ⟨fun _ => ⟨(fun e => nomatch e), fun _ e => nomatch e⟩, fun _ => Or.inr rfl⟩
        · rw [set_ne _ _ e, ← h.con.mem j]; exact ⟨fun e' => e'.resolve_right e, Or.inl⟩
      · show Verif.Signal.set s.phase k .connected j = _
        by_cases e' : j = k
        · rw [e', hph] at e; cases e
        · rw [set_ne _ _ e']; exact e
    · cases hs
  | disconnect t k =>
    simp only [step, disconnectStep] at hs
    split at hs
    · rename_i hc
      injection hs with hs; subst hs
      have hph := hc.2.2
      refine ⟨h.mtx.same t _ (by simp [acquire, List.countP_cons, Frame.holds]), h.lif.same t _ _ (fun k => by simp [acquire, List.countP_cons, Frame.isH]) (fun j u => ?_),
        h.con.move t k _ (.removed t) (fun j => ?_) (fun j => ?_) (fun u e => ⟨by rw [hph]; exact (fun e => nomatch e), fun e' => nomatch e'⟩)
          (fun u e => ⟨by rw [hph]; exact (fun e => nomatch e), fun e' => by injection e' with e'; exact e e'.symm⟩) _ _ ?_ h.con.nodup (fun j => ?_),
        h.emi.upd t _ (fun j u e => ?_) (fun _ e => e) (fun v a b c d e => ?_)⟩
      · show Verif.Signal.set s.phase k (.removed t) j = _ ↔ _
        by_cases e : j = k
        · rw [e, set_self, hph]; exact ⟨(fun e => nomatch e), fun e => nomatch e⟩
        · rw [set_ne _ _ e]
      · simp only [List.countP_cons, Frame.isC]
        by_cases e : j = k
        · subst e; rw [h.con.conn, hph]; simp
        · simp [e]
      · simp only [List.countP_cons, Frame.isR]
        by_cases e : j = k
        · subst e; rw [h.con.rel, hph]; simp
        · simp [e, Ne.symm e]
      · show s.handlers.erase k = s.order.filter _
        rw [(handlers_nodup h).erase_eq_filter, h.con.lst, List.filter_filter]
        apply List.filter_congr
        intro j hj
        by_cases e : j = k
        · subst e; rw [set_self]; simp
        · rw [set_ne _ _ e]; simp [e]
      · show j ∈ s.order ↔ _
        by_cases e : j = k
        · subst e; rw [set_self, h.con.mem, hph]; exact ⟨fun _ => ⟨(fun e => nomatch e), fun _ e => nomatch e⟩, fun _ => ⟨(fun e => nomatch e), fun _ e => nomatch e⟩⟩
        · rw [set_ne _ _ e]; exact h.con.mem j
      · show Verif.Signal.set s.phase k (.removed t) j = _
        by_cases e' : j = k
        · rw [e', hph] at e; cases e
        · rw [set_ne _ _ e']; exact e
      · rcases List.mem_cons.1 e with e | e
        · cases e
        · exact Or.inl e
    · cases hs
  | release t =>
    simp only [step, releaseStep] at hs
    split at hs
    · rename_i k rest hst
      have hph : s.phase k = .removed t := by
        have := h.con.rel k t
        rw [hst] at this
        simp only [List.countP_cons, Frame.isR, beq_self_eq_true, if_true] at this
        split at this
        · assumption
        · omega
      split at hs
      · cases hs
      · rename_i m hm
        injection hs with hs; subst hs
        refine ⟨h.mtx.same t _ (by rw [hst]; simp [List.countP_cons, Frame.holds]), h.lif.kill hm (fun j => by rw [hst]; simp [List.countP_cons, Frame.isH]) (fun u e => by rw [hph] at e; cases e),
          h.con.move t k _ (.gone t) (fun j => ?_) (fun j => ?_) (fun u e => ⟨by rw [hph]; exact (fun e => nomatch e), fun e' => nomatch e'⟩)
            (fun u e => ⟨by rw [hph]; intro e'; injection e' with e'; exact e e'.symm, fun e' => nomatch e'⟩) _ _ ?_ h.con.nodup (fun j => ?_),
          h.emi.upd t _ (fun j u e => ?_) (fun _ e => e) (fun v a b c d e => Or.inl (List.mem_of_mem_tail e))⟩
        · have := h.con.conn j t
          rw [hst] at this ⊢
          simp only [List.countP_cons, Frame.isC, List.tail_cons] at this ⊢
          by_cases e : j = k
          · subst e; rw [hph] at this; simp at this; simp; exact this
          · simp [e]
        · have := h.con.rel j t
          rw [hst] at this ⊢
          simp only [List.countP_cons, Frame.isR, List.tail_cons] at this ⊢
          by_cases e : j = k
          · subst e; rw [hph] at this; simp at this; simp; exact this
          · simp [e, Ne.symm e]
        · show s.handlers = s.order.filter _
          rw [h.con.lst]
          apply List.filter_congr
          intro j hj
          by_cases e : j = k
          · subst e; rw [set_self, hph]; simp
          · rw [set_ne _ _ e]
        · show j ∈ s.order ↔ _
          by_cases e : j = k
          · subst e; rw [set_self, h.con.mem, hph]; exact ⟨fun _ => ⟨(fun e => nomatch e), fun _ e => nomatch e⟩, fun _ => ⟨(fun e => nomatch e), fun _ e => nomatch e⟩⟩
          · rw [set_ne _ _ e]; exact h.con.mem j
        · show Verif.Signal.set s.phase k (.gone t) j = _
          by_cases e' : j = k
          · rw [e', hph] at e; cases e
          · rw [set_ne _ _ e']; exact e
    · cases hs

theorem run_inv {cfg : Cfg} : ∀ {as : List Act} {s s' : State}, Inv s → run cfg s as = some s' → Inv s'
  | [], s, s', h, hs => by injection hs with hs; rw [← hs]; exact h
  | a :: as, s, s', h, hs => by
    simp only [run] at hs
    cases hx : step cfg s a with
    | none => rw [hx] at hs; cases hs
    | some r => rw [hx] at hs; exact run_inv (step_inv h hx) hs

end Verif.Signal
