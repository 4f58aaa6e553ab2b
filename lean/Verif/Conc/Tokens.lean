import Verif.Conc.Base
import Mathlib.Data.Int.Order.Basic
/-! C44, C45: handing out the devices. -/
namespace TDP.Conc.Tokens
open TDP.Conc

/-! ## C45: the CPU token -/

/-- Where a thread is in `request_cpu`/`release_cpu` (geometry_computer.cpp:24-40). -/
inductive CPC
  | out    -- outside both functions, without the token
  | want   -- 26: saw `cpu_busy==false`, at `pthread_mutex_lock`
  | inLock -- 27, holding the lock
  | fail   -- 31, holding the lock
  | held   -- `request_cpu` returned true; the lock stays held
  | rel    -- 39: `cpu_busy` reset, lock still held

structure CSt (n : Nat) where
  busy : Bool
  lock : Option (Fin n)
  pc : Fin n → CPC

/-- geometry_computer.h: a new computer is not busy. -/
def cstart (n : Nat) : CSt n := { busy := false, lock := none, pc := fun _ => .out }

/-- One step of one thread. -/
inductive CStep {n : Nat} : CSt n → CSt n → Prop
  | testFree (s t) : s.pc t = .out → s.busy = false → CStep s { s with pc := upd s.pc t .want }
  | testBusy (s t) : s.pc t = .out → s.busy = true → CStep s s
  | lock (s t) : s.pc t = .want → s.lock = none → CStep s { s with lock := some t, pc := upd s.pc t .inLock }
  | got (s t) : s.pc t = .inLock → s.busy = false → CStep s { s with busy := true, pc := upd s.pc t .held }
  | miss (s t) : s.pc t = .inLock → s.busy = true → CStep s { s with pc := upd s.pc t .fail }
  | failUnlock (s t) : s.pc t = .fail → CStep s { s with lock := none, pc := upd s.pc t .out }
  | release (s t) : s.pc t = .held → CStep s { s with busy := false, pc := upd s.pc t .rel }
  | relUnlock (s t) : s.pc t = .rel → CStep s { s with lock := none, pc := upd s.pc t .out }

def cholds : CPC → Prop
  | .inLock | .fail | .held | .rel => True
  | _ => False
def cowns : CPC → Prop
  | .held => True
  | _ => False

structure CInv {n : Nat} (s : CSt n) : Prop where
  l : LockInv cholds s.pc s.lock
  o : ∃ o, LockInv cowns s.pc o ∧ s.busy = o.isSome

theorem cinv_step {n : Nat} {s s' : CSt n} (h : CInv s) (st : CStep s s') : CInv s' := by
  obtain ⟨l, o, ho, hb⟩ := h
  cases st with
  | testFree t hpc hq =>
    exact ⟨l.keep (by rw [hpc]; simp [cholds]), o, ho.keep (by rw [hpc]; simp [cowns]), hb⟩
  | testBusy t hpc hq => exact ⟨l, o, ho, hb⟩
  | lock t hpc hl =>
    rw [hl] at l
    exact ⟨l.acquire trivial, o, ho.keep (by rw [hpc]; simp [cowns]), hb⟩
  | got t hpc hq =>
    rw [hq] at hb
    have : o = none := by cases o with
      | none => rfl
      | some _ => simp at hb
    rw [this] at ho
    exact ⟨l.keep (by rw [hpc]; simp [cholds]), some t, ho.acquire trivial, rfl⟩
  | miss t hpc hq =>
    exact ⟨l.keep (by rw [hpc]; simp [cholds]), o, ho.keep (by rw [hpc]; simp [cowns]), hb⟩
  | failUnlock t hpc =>
    exact ⟨l.release (t := t) (by rw [hpc]; trivial) (fun h => h), o, ho.keep (by rw [hpc]; simp [cowns]), hb⟩
  | release t hpc =>
    exact ⟨l.keep (by rw [hpc]; simp [cholds]), none, ho.release (t := t) (by rw [hpc]; trivial) (fun h => h), rfl⟩
  | relUnlock t hpc =>
    exact ⟨l.release (t := t) (by rw [hpc]; trivial) (fun h => h), o, ho.keep (by rw [hpc]; simp [cowns]), hb⟩

theorem cinv_reach {n : Nat} {s : CSt n} (h : Reach CStep (cstart n) s) : CInv s :=
  h.inv CInv ⟨fun t => by simp [cstart, cholds], none, fun t => by simp [cstart, cowns], rfl⟩ (fun _ _ a b => cinv_step a b)

/-- C45. At most one thread has the token: two threads for which `request_cpu` has returned true and which have not
called `release_cpu` since are the same. -/
theorem C45_exclusive {n : Nat} (s : CSt n) (h : Reach CStep (cstart n) s) (t u : Fin n) (ht : s.pc t = .held) (hu : s.pc u = .held) :
    t = u := (cinv_reach h).l.unique (by rw [ht]; trivial) (by rw [hu]; trivial)

/-- C45. The flag tells the truth: it is set exactly while some thread has the token. -/
theorem C45_flag {n : Nat} (s : CSt n) (h : Reach CStep (cstart n) s) : s.busy = true ↔ ∃ t, s.pc t = .held := by
  obtain ⟨l, o, ho, hb⟩ := cinv_reach h
  have ow : ∀ x, cowns x ↔ x = .held := by intro x; cases x <;> simp [cowns]
  rw [hb]
  constructor
  · intro hs
    obtain ⟨t, rfl⟩ := Option.isSome_iff_exists.1 hs
    exact ⟨t, (ow _).1 ((ho t).2 rfl)⟩
  · rintro ⟨t, ht⟩
    rw [(ho t).1 ((ow _).2 ht)]; rfl

/-- C45. Once everybody has released it, the token can be had again by anyone. -/
theorem C45_available {n : Nat} (s : CSt n) (h : Reach CStep (cstart n) s) (ho : ∀ t, s.pc t = .out) (t : Fin n) :
    ∃ s', Reach CStep s s' ∧ s'.pc t = .held := by
  have hb : s.busy = false := by
    rw [← Bool.not_eq_true, C45_flag s h]
    rintro ⟨u, hu⟩; rw [ho u] at hu; exact absurd hu (by simp)
  have hl : s.lock = none := by
    cases hl : s.lock with
    | none => rfl
    | some u => have := ((cinv_reach h).l u).2 hl; rw [ho u] at this; exact absurd this (fun h => h)
  have s1 := CStep.testFree s t (ho t) hb
  have s2 := CStep.lock { s with pc := upd s.pc t .want } t (upd_same ..) hl
  have s3 := CStep.got { s with lock := some t, pc := upd (upd s.pc t .want) t .inLock } t (upd_same ..) hb
  exact ⟨_, ((Reach.single s1).trans (Reach.single s2)).trans (Reach.single s3), upd_same ..⟩

/-- Non-vacuity: the token is reachable. -/
example : ∃ s, Reach CStep (cstart 2) s ∧ s.pc 1 = .held := C45_available _ Reach.init (fun _ => rfl) 1

/-! ## C44: the GPUs -/

/-- Where a thread is in `request_gpu`/`release_gpu` (geometry_computer.cpp:46-72). `m` is `min_size`, `f` is `force`,
`i` the device looked at. -/
inductive GPC (k : Nat)
  | out
  | scan (m : Int) (f : Bool) (i : Nat)       -- 54-55: the loop over the devices
  | want (m : Int) (f : Bool) (i : Fin k)     -- 56, at `pthread_mutex_lock`
  | inLock (m : Int) (f : Bool) (i : Fin k)   -- 57
  | fail (m : Int) (f : Bool) (i : Fin k)     -- 61
  | use (m : Int) (i : Fin k)                 -- 59: returned; the lock stays held
  | rel (i : Fin k)                           -- 71: unlocked, `busy` not yet reset

structure GSt (k n : Nat) where
  busy : Fin k → Bool
  lock : Fin k → Option (Fin n)
  pc : Fin n → GPC k

def gstart (k n : Nat) : GSt k n := { busy := fun _ => false, lock := fun _ => none, pc := fun _ => .out }

/-- One step of one thread; `mem` are the devices' `mem_size`. -/
inductive GStep {k n : Nat} (mem : Fin k → Int) : GSt k n → GSt k n → Prop
  | request (s t m f) : s.pc t = .out → GStep mem s { s with pc := upd s.pc t (.scan m f 0) }
  | skip (s t m f) (i : Fin k) : s.pc t = .scan m f i → (s.busy i = true ∨ ¬ mem i > m + 1) →
      GStep mem s { s with pc := upd s.pc t (.scan m f (i + 1)) }
  | try (s t m f) (i : Fin k) : s.pc t = .scan m f i → s.busy i = false → mem i > m + 1 →
      GStep mem s { s with pc := upd s.pc t (.want m f i) }
  | again (s t m) : s.pc t = .scan m true k → GStep mem s { s with pc := upd s.pc t (.scan m true 0) }
  | giveUp (s t m) : s.pc t = .scan m false k → GStep mem s { s with pc := upd s.pc t .out }
  | lock (s t m f) (i : Fin k) : s.pc t = .want m f i → s.lock i = none →
      GStep mem s { s with lock := upd s.lock i (some t), pc := upd s.pc t (.inLock m f i) }
  | got (s t m f) (i : Fin k) : s.pc t = .inLock m f i → s.busy i = false →
      GStep mem s { s with busy := upd s.busy i true, pc := upd s.pc t (.use m i) }
  | miss (s t m f) (i : Fin k) : s.pc t = .inLock m f i → s.busy i = true →
      GStep mem s { s with pc := upd s.pc t (.fail m f i) }
  | failUnlock (s t m f) (i : Fin k) : s.pc t = .fail m f i →
      GStep mem s { s with lock := upd s.lock i none, pc := upd s.pc t (.scan m f (i + 1)) }
  | relUnlock (s t m) (i : Fin k) : s.pc t = .use m i → GStep mem s { s with lock := upd s.lock i none, pc := upd s.pc t (.rel i) }
  | relBusy (s t) (i : Fin k) : s.pc t = .rel i → GStep mem s { s with busy := upd s.busy i false, pc := upd s.pc t .out }

def gholds {k : Nat} (d : Fin k) : GPC k → Prop
  | .inLock _ _ i | .fail _ _ i | .use _ i => i = d
  | _ => False
/-- A device belongs to a thread from the moment it was handed out until `busy` was reset. -/
def gowns {k : Nat} (d : Fin k) : GPC k → Prop
  | .use _ i | .rel i => i = d
  | _ => False
def gfits {k : Nat} (mem : Fin k → Int) : GPC k → Prop
  | .want m _ i | .inLock m _ i | .fail m _ i | .use m i => mem i > m + 1
  | _ => True

structure GInv {k n : Nat} (mem : Fin k → Int) (s : GSt k n) : Prop where
  l : ∀ d, LockInv (gholds d) s.pc (s.lock d)
  o : ∀ d, ∃ o, LockInv (gowns d) s.pc o ∧ s.busy d = o.isSome
  f : ∀ t, gfits mem (s.pc t)

theorem fits_upd {k n : Nat} {mem : Fin k → Int} {pc : Fin n → GPC k} (h : ∀ t, gfits mem (pc t)) (t : Fin n) {x : GPC k}
    (hx : gfits mem x) : ∀ u, gfits mem (upd pc t x u) := by
  intro u
  by_cases hu : u = t
  · subst hu; rw [upd_same]; exact hx
  · rw [upd_ne _ _ hu]; exact h u

theorem ginv_step {k n : Nat} {mem : Fin k → Int} {s s' : GSt k n} (h : GInv mem s) (st : GStep mem s s') : GInv mem s' := by
  obtain ⟨l, o, f⟩ := h
  cases st with
  | request t m fo hpc =>
    refine ⟨fun d => (l d).keep (by rw [hpc]; simp [gholds]), fun d => ?_, fits_upd f t trivial⟩
    obtain ⟨w, hw, hb⟩ := o d
    exact ⟨w, hw.keep (by rw [hpc]; simp [gowns]), hb⟩
  | skip t m fo i hpc hq =>
    refine ⟨fun d => (l d).keep (by rw [hpc]; simp [gholds]), fun d => ?_, fits_upd f t trivial⟩
    obtain ⟨w, hw, hb⟩ := o d
    exact ⟨w, hw.keep (by rw [hpc]; simp [gowns]), hb⟩
  | «try» t m fo i hpc hq hm =>
    refine ⟨fun d => (l d).keep (by rw [hpc]; simp [gholds]), fun d => ?_, fits_upd f t hm⟩
    obtain ⟨w, hw, hb⟩ := o d
    exact ⟨w, hw.keep (by rw [hpc]; simp [gowns]), hb⟩
  | again t m hpc =>
    refine ⟨fun d => (l d).keep (by rw [hpc]; simp [gholds]), fun d => ?_, fits_upd f t trivial⟩
    obtain ⟨w, hw, hb⟩ := o d
    exact ⟨w, hw.keep (by rw [hpc]; simp [gowns]), hb⟩
  | giveUp t m hpc =>
    refine ⟨fun d => (l d).keep (by rw [hpc]; simp [gholds]), fun d => ?_, fits_upd f t trivial⟩
    obtain ⟨w, hw, hb⟩ := o d
    exact ⟨w, hw.keep (by rw [hpc]; simp [gowns]), hb⟩
  | lock t m fo i hpc hl =>
    have hf := f t
    rw [hpc] at hf
    refine ⟨fun d => ?_, fun d => ?_, fits_upd f t hf⟩
    · by_cases hd : d = i
      · subst hd
        have := l d
        rw [hl] at this
        show LockInv _ _ (upd s.lock d (some t) d)
        rw [upd_same]
        exact this.acquire (rfl : d = d)
      · show LockInv _ _ (upd s.lock i (some t) d)
        rw [upd_ne _ _ hd]
        exact (l d).keep (by rw [hpc]; simp [gholds, Ne.symm hd])
    · obtain ⟨w, hw, hb⟩ := o d
      exact ⟨w, hw.keep (by rw [hpc]; simp [gowns]), hb⟩
  | got t m fo i hpc hq =>
    have hf := f t
    rw [hpc] at hf
    refine ⟨fun d => (l d).keep (by rw [hpc]; simp [gholds]), fun d => ?_, fits_upd f t hf⟩
    obtain ⟨w, hw, hb⟩ := o d
    by_cases hd : d = i
    · subst hd
      rw [hq] at hb
      have : w = none := by cases w with
        | none => rfl
        | some _ => simp at hb
      rw [this] at hw
      exact ⟨some t, hw.acquire (rfl : d = d), by show upd s.busy d true d = _; rw [upd_same]; rfl⟩
    · exact ⟨w, hw.keep (by rw [hpc]; simp [gowns, Ne.symm hd]), by show upd s.busy i true d = _; rw [upd_ne _ _ hd]; exact hb⟩
  | miss t m fo i hpc hq =>
    have hf := f t
    rw [hpc] at hf
    refine ⟨fun d => (l d).keep (by rw [hpc]; simp [gholds]), fun d => ?_, fits_upd f t hf⟩
    obtain ⟨w, hw, hb⟩ := o d
    exact ⟨w, hw.keep (by rw [hpc]; simp [gowns]), hb⟩
  | failUnlock t m fo i hpc =>
    refine ⟨fun d => ?_, fun d => ?_, fits_upd f t trivial⟩
    · by_cases hd : d = i
      · subst hd
        show LockInv _ _ (upd s.lock d none d)
        rw [upd_same]
        exact (l d).release (t := t) (by rw [hpc]; exact (rfl : d = d)) (fun h => h)
      · show LockInv _ _ (upd s.lock i none d)
        rw [upd_ne _ _ hd]
        exact (l d).keep (by rw [hpc]; simp [gholds, Ne.symm hd])
    · obtain ⟨w, hw, hb⟩ := o d
      exact ⟨w, hw.keep (by rw [hpc]; simp [gowns]), hb⟩
  | relUnlock t m i hpc =>
    refine ⟨fun d => ?_, fun d => ?_, fits_upd f t trivial⟩
    · by_cases hd : d = i
      · subst hd
        show LockInv _ _ (upd s.lock d none d)
        rw [upd_same]
        exact (l d).release (t := t) (by rw [hpc]; exact (rfl : d = d)) (fun h => h)
      · show LockInv _ _ (upd s.lock i none d)
        rw [upd_ne _ _ hd]
        exact (l d).keep (by rw [hpc]; simp [gholds, Ne.symm hd])
    · obtain ⟨w, hw, hb⟩ := o d
      exact ⟨w, hw.keep (by rw [hpc]; simp [gowns]), hb⟩
  | relBusy t i hpc =>
    refine ⟨fun d => (l d).keep (by rw [hpc]; simp [gholds]), fun d => ?_, fits_upd f t trivial⟩
    obtain ⟨w, hw, hb⟩ := o d
    by_cases hd : d = i
    · subst hd
      exact ⟨none, hw.release (t := t) (by rw [hpc]; exact (rfl : d = d)) (fun h => h),
        by show upd s.busy d false d = _; rw [upd_same]; rfl⟩
    · exact ⟨w, hw.keep (by rw [hpc]; simp [gowns, Ne.symm hd]), by show upd s.busy i false d = _; rw [upd_ne _ _ hd]; exact hb⟩

theorem ginv_reach {k n : Nat} {mem : Fin k → Int} {s : GSt k n} (h : Reach (GStep mem) (gstart k n) s) : GInv mem s :=
  h.inv (GInv mem) ⟨fun d t => by simp [gstart, gholds], fun d => ⟨none, fun t => by simp [gstart, gowns], rfl⟩, fun t => by simp [gstart, gfits]⟩
    (fun _ _ a b => ginv_step a b)

/-- C44. A device is never handed to a thread before the previous user called `release_gpu` for it. -/
theorem C44_exclusive {k n : Nat} (mem : Fin k → Int) (s : GSt k n) (h : Reach (GStep mem) (gstart k n) s) (t u : Fin n) (d : Fin k)
    (m m' : Int) (ht : s.pc t = .use m d) (hu : s.pc u = .use m' d) : t = u := by
  obtain ⟨w, hw, _⟩ := (ginv_reach h).o d
  exact hw.unique (by rw [ht]; exact rfl) (by rw [hu]; exact rfl)

/-- C44. Nor before that release is complete, although the lock is given up before the flag is reset: a thread in the
middle of `release_gpu` excludes users of the device as well, so its late `busy = false` cannot hit a new user. -/
theorem C44_exclusive_release {k n : Nat} (mem : Fin k → Int) (s : GSt k n) (h : Reach (GStep mem) (gstart k n) s) (t u : Fin n)
    (d : Fin k) (m : Int) (ht : s.pc t = .rel d) : s.pc u ≠ .use m d := by
  intro hu
  obtain ⟨w, hw, _⟩ := (ginv_reach h).o d
  have : t = u := hw.unique (by rw [ht]; exact rfl) (by rw [hu]; exact rfl)
  subst this
  rw [ht] at hu
  exact absurd hu (by simp)

/-- C44. The device handed out has the memory asked for. -/
theorem C44_memory {k n : Nat} (mem : Fin k → Int) (s : GSt k n) (h : Reach (GStep mem) (gstart k n) s) (t : Fin n) (d : Fin k)
    (m : Int) (ht : s.pc t = .use m d) : m + 1 < mem d := by
  have := (ginv_reach h).f t
  rw [ht] at this
  exact this

/-- C44. When nobody uses any device, each device can be had again (by anyone asking for what it offers, if the
devices before it do not fit). -/
theorem C44_available {k n : Nat} (mem : Fin k → Int) (s : GSt k n) (h : Reach (GStep mem) (gstart k n) s)
    (ho : ∀ t, s.pc t = .out) (t : Fin n) (d : Fin k) (m : Int) (f : Bool) (hm : m + 1 < mem d)
    (hd : ∀ i : Fin k, i < d → ¬ m + 1 < mem i) : ∃ s', Reach (GStep mem) s s' ∧ s'.pc t = .use m d := by
  have hb : ∀ i, s.busy i = false := by
    intro i
    obtain ⟨w, hw, e⟩ := (ginv_reach h).o i
    cases w with
    | none => exact e
    | some u => have := (hw u).2 rfl; rw [ho u] at this; exact absurd this (fun h => h)
  have hl : ∀ i, s.lock i = none := by
    intro i
    cases hl : s.lock i with
    | none => rfl
    | some u => have := ((ginv_reach h).l i u).2 hl; rw [ho u] at this; exact absurd this (fun h => h)
  have scan : ∀ j : Nat, j ≤ d.1 → Reach (GStep mem) s { s with pc := upd s.pc t (.scan m f j) } := by
    intro j
    induction j with
    | zero => intro _; exact Reach.single (GStep.request s t m f (ho t))
    | succ j ih =>
      intro hj
      have hjk : j < k := by have := d.2; omega
      have st := GStep.skip (mem := mem) { s with pc := upd s.pc t (.scan m f j) } t m f ⟨j, hjk⟩ (upd_same ..)
        (Or.inr (hd ⟨j, hjk⟩ (by show j < d.1; omega)))
      have e : upd (upd s.pc t (.scan m f j)) t (.scan m f (j + 1)) = upd s.pc t (.scan m f (j + 1)) := Function.update_idem ..
      have := Reach.step (ih (by omega)) st
      simp only [e] at this
      exact this
  have s1 := GStep.try (mem := mem) { s with pc := upd s.pc t (.scan m f d) } t m f d (upd_same ..) (hb d) hm
  have s2 := GStep.lock (mem := mem) { s with pc := upd (upd s.pc t (.scan m f d)) t (.want m f d) } t m f d (upd_same ..) (hl d)
  have s3 := GStep.got (mem := mem) { s with lock := upd s.lock d (some t), pc := upd (upd (upd s.pc t (.scan m f d)) t (.want m f d)) t (.inLock m f d) }
    t m f d (upd_same ..) (hb d)
  exact ⟨_, (((scan d (le_refl _)).step s1).step s2).step s3, upd_same ..⟩

/-- Non-vacuity: a device is in use in some reachable state. -/
example : ∃ s : GSt 2 3, Reach (GStep (fun i => if i = 0 then 10 else 100)) (gstart 2 3) s ∧ s.pc 2 = .use 50 1 :=
  C44_available _ _ Reach.init (fun _ => rfl) 2 1 50 true (by decide) (by decide)

end TDP.Conc.Tokens
