import Verif.Conc.Base
import Mathlib.Data.Multiset.Basic
/-! C78: the workers of the data generator (src/test/data_generator.cpp). -/
namespace TDP.Conc.Generator
open TDP.Conc

/-- What a worker has in its buffers after `generate_nuclei` (data_generator.cpp:270): `data`, `data2` and the number returned. -/
structure Result where
  first : List Nat
  second : List Nat
  count : Nat

/-- Where a worker is in `generate_unit` (data_generator.cpp:255-280). -/
inductive PC (J : Type)
  | top                          -- 258: `while(!jobs.empty())`, no lock held
  | wait                         -- 259: at `pthread_mutex_lock`
  | front                        -- 261, holding the lock
  | pop (j : J)                  -- 262, holding the lock
  | unlock (j : J)               -- 265, holding the lock
  | work (j : J)                 -- 266-269
  | wwait (j : J) (r : Result)   -- 271: at `pthread_mutex_lock`
  | write1 (j : J) (r : Result)  -- 272, holding the lock
  | write2 (j : J) (r : Result)  -- 273, holding the lock
  | add (j : J) (r : Result)     -- 274, holding the lock
  | wunlock                      -- 275, holding the lock
  | stopped
  | crashed                      -- `front()` or `pop()` of an empty queue: undefined behaviour

/-- Shared state: `jobs`, `mylock`, the two files, `global_generated`. `log` is a ghost: the jobs done, with their results, in the order of
writing. -/
structure St (J : Type) (n : Nat) where
  queue : List J
  lock : Option (Fin n)
  out1 : List Nat
  out2 : List Nat
  total : Nat
  pc : Fin n → PC J
  log : List (J × Result)

/-- `main` up to the creation of the threads (data_generator.cpp:342-369). -/
def start {J : Type} (n : Nat) (jobs : List J) : St J n :=
  { queue := jobs, lock := none, out1 := [], out2 := [], total := 0, pc := fun _ => .top, log := [] }

/-- One step of one worker. `gen` says which results `generate_nuclei` may have for a job (it draws random numbers). `total` is exact
(`long`). The main thread writes the vessels to another file and waits (371-378). -/
inductive Step {J : Type} {n : Nat} (gen : J → Result → Prop) : St J n → St J n → Prop
  | topEmpty (s t) : s.pc t = .top → s.queue = [] → Step gen s { s with pc := upd s.pc t .stopped }
  | topMore (s t) : s.pc t = .top → s.queue ≠ [] → Step gen s { s with pc := upd s.pc t .wait }
  | lock (s t) : s.pc t = .wait → s.lock = none → Step gen s { s with lock := some t, pc := upd s.pc t .front }
  | front (s t j rest) : s.pc t = .front → s.queue = j :: rest → Step gen s { s with pc := upd s.pc t (.pop j) }
  | frontCrash (s t) : s.pc t = .front → s.queue = [] → Step gen s { s with pc := upd s.pc t .crashed }
  | pop (s t j q rest) : s.pc t = .pop j → s.queue = q :: rest → Step gen s { s with queue := rest, pc := upd s.pc t (.unlock j) }
  | popCrash (s t j) : s.pc t = .pop j → s.queue = [] → Step gen s { s with pc := upd s.pc t .crashed }
  | unlock (s t j) : s.pc t = .unlock j → Step gen s { s with lock := none, pc := upd s.pc t (.work j) }
  | work (s t j r) : s.pc t = .work j → gen j r → Step gen s { s with pc := upd s.pc t (.wwait j r) }
  | wlock (s t j r) : s.pc t = .wwait j r → s.lock = none → Step gen s { s with lock := some t, pc := upd s.pc t (.write1 j r) }
  | write1 (s t j r) : s.pc t = .write1 j r → Step gen s { s with out1 := s.out1 ++ r.first, pc := upd s.pc t (.write2 j r) }
  | write2 (s t j r) : s.pc t = .write2 j r → Step gen s { s with out2 := s.out2 ++ r.second, pc := upd s.pc t (.add j r) }
  | add (s t j r) : s.pc t = .add j r →
      Step gen s { s with total := s.total + r.count, log := s.log ++ [(j, r)], pc := upd s.pc t .wunlock }
  | wunlock (s t) : s.pc t = .wunlock → Step gen s { s with lock := none, pc := upd s.pc t .top }

/-! ## Invariants -/

def holds {J : Type} : PC J → Prop
  | .front | .pop _ | .unlock _ | .write1 _ _ | .write2 _ _ | .add _ _ | .wunlock | .crashed => True
  | _ => False
/-- The job a worker has taken and not yet accounted for. -/
def inHand {J : Type} : PC J → Multiset J
  | .unlock j | .work j | .wwait j _ | .write1 j _ | .write2 j _ | .add j _ => {j}
  | _ => 0
/-- What the worker holding the lock has written ahead of the log. -/
def ahead {J : Type} : PC J → List Nat × List Nat
  | .write2 _ r => (r.first, [])
  | .add _ r => (r.first, r.second)
  | _ => ([], [])
/-- The results in hand. -/
def made {J : Type} (gen : J → Result → Prop) : PC J → Prop
  | .wwait j r | .write1 j r | .write2 j r | .add j r => gen j r
  | _ => True
/-- What a worker relies on. -/
def local' {J : Type} {n : Nat} (s : St J n) : PC J → Prop
  | .pop j => ∃ rest, s.queue = j :: rest
  | .stopped => s.queue = []
  | _ => True

/-- What has been written ahead of the log. -/
def pend {J : Type} {n : Nat} (pc : Fin n → PC J) : Option (Fin n) → List Nat × List Nat
  | some t => ahead (pc t)
  | none => ([], [])

structure Inv {J : Type} {n : Nat} (gen : J → Result → Prop) (jobs : List J) (s : St J n) : Prop where
  l1 : LockInv holds s.pc s.lock
  loc : ∀ t, local' s (s.pc t)
  mks : ∀ t, made gen (s.pc t)
  cons : ((s.queue : Multiset J) + (s.log.map Prod.fst : List J)) + ∑ t, inHand (s.pc t) = (jobs : Multiset J)
  done : ∀ e ∈ s.log, gen e.1 e.2
  tot : s.total = (s.log.map (fun e => e.2.count)).sum
  files : s.out1 = s.log.flatMap (fun e => e.2.first) ++ (pend s.pc s.lock).1 ∧
    s.out2 = s.log.flatMap (fun e => e.2.second) ++ (pend s.pc s.lock).2

theorem inv_start {J : Type} {n : Nat} (gen : J → Result → Prop) (jobs : List J) : Inv gen jobs (start n jobs) where
  l1 := fun t => by simp [start, holds]
  loc := fun t => trivial
  mks := fun t => trivial
  cons := by simp [start, inHand]
  done := by simp [start]
  tot := rfl
  files := ⟨rfl, rfl⟩

theorem loc_keep {J : Type} {n : Nat} {s s' : St J n} {t : Fin n} {x : PC J} (h : ∀ t, local' s (s.pc t))
    (hq : s'.queue = s.queue) (hp : s'.pc = upd s.pc t x) (hx : local' s x) : ∀ u, local' s' (s'.pc u) := by
  have tr : ∀ y, local' s y → local' s' y := by
    intro y hy
    cases y <;> simp only [local'] at hy ⊢ <;> first | trivial | (rw [hq]; exact hy)
  intro u
  rw [hp]
  by_cases hu : u = t
  · subst hu; rw [upd_same]; exact tr _ hx
  · rw [upd_ne _ _ hu]; exact tr _ (h u)

theorem made_upd {J : Type} {n : Nat} {gen : J → Result → Prop} {pc : Fin n → PC J} (h : ∀ t, made gen (pc t)) {t : Fin n} {x : PC J}
    (hx : made gen x) : ∀ u, made gen (upd pc t x u) := by
  intro u
  by_cases hu : u = t
  · subst hu; rw [upd_same]; exact hx
  · rw [upd_ne _ _ hu]; exact h u

/-- What the holder has written ahead is not changed by others. -/
theorem ahead_upd {J : Type} {n : Nat} (pc : Fin n → PC J) (lock : Option (Fin n)) (t : Fin n) (x : PC J)
    (h : lock = some t → ahead x = ahead (pc t)) :
    pend (upd pc t x) lock = pend pc lock := by
  cases lock with
  | none => rfl
  | some u =>
    show ahead (upd pc t x u) = ahead (pc u)
    by_cases hu : u = t
    · subst hu; rw [upd_same]; exact h rfl
    · rw [upd_ne _ _ hu]

theorem inv_step {J : Type} {n : Nat} {gen : J → Result → Prop} {jobs : List J} {s s' : St J n} (h : Inv gen jobs s) (st : Step gen s s') :
    Inv gen jobs s' := by
  obtain ⟨l1, loc, mk, cons, done, tot, files⟩ := h
  have fkeep : ∀ (t : Fin n) (x : PC J), (ahead x = ahead (s.pc t)) →
      s.out1 = s.log.flatMap (fun e => e.2.first) ++ (pend (upd s.pc t x) s.lock).1 ∧
      s.out2 = s.log.flatMap (fun e => e.2.second) ++ (pend (upd s.pc t x) s.lock).2 := by
    intro t x hx
    rw [ahead_upd s.pc s.lock t x (fun _ => hx)]
    exact files
  have frel : ∀ (t : Fin n), holds (s.pc t) → ahead (s.pc t) = ([], []) →
      s.out1 = s.log.flatMap (fun e => e.2.first) ++ [] ∧ s.out2 = s.log.flatMap (fun e => e.2.second) ++ [] := by
    intro t ht ha
    have hl := (l1 t).1 ht
    rw [hl] at files
    simp only [pend, ha] at files
    exact files
  cases st with
  | topEmpty t hpc hq =>
    exact ⟨l1.keep (by rw [hpc]; simp [holds]), loc_keep loc rfl rfl hq, made_upd mk trivial,
      sum_upd_conserve inHand _ _ _ cons (by rw [hpc]; rfl), done, tot, fkeep t _ (by rw [hpc]; rfl)⟩
  | topMore t hpc hq =>
    exact ⟨l1.keep (by rw [hpc]; simp [holds]), loc_keep loc rfl rfl trivial, made_upd mk trivial,
      sum_upd_conserve inHand _ _ _ cons (by rw [hpc]; rfl), done, tot, fkeep t _ (by rw [hpc]; rfl)⟩
  | lock t hpc hl =>
    rw [hl] at l1 files
    refine ⟨l1.acquire trivial, loc_keep loc rfl rfl trivial, made_upd mk trivial,
      sum_upd_conserve inHand _ _ _ cons (by rw [hpc]; rfl), done, tot, ?_⟩
    simp only [pend, upd_same]
    exact files
  | front t j rest hpc hq =>
    exact ⟨l1.keep (by rw [hpc]; simp [holds]), loc_keep loc rfl rfl ⟨rest, hq⟩, made_upd mk trivial,
      sum_upd_conserve inHand _ _ _ cons (by rw [hpc]; rfl), done, tot, fkeep t _ (by rw [hpc]; rfl)⟩
  | frontCrash t hpc hq =>
    exact ⟨l1.keep (by rw [hpc]; simp [holds]), loc_keep loc rfl rfl trivial, made_upd mk trivial,
      sum_upd_conserve inHand _ _ _ cons (by rw [hpc]; rfl), done, tot, fkeep t _ (by rw [hpc]; rfl)⟩
  | pop t j q rest hpc hq =>
    have hp := loc t
    rw [hpc] at hp
    obtain ⟨rest', hr⟩ := hp
    rw [hr] at hq
    injection hq with e1 e2
    subst e1; subst e2
    refine ⟨l1.keep (by rw [hpc]; simp [holds]), ?_, made_upd mk trivial, ?_, done, tot, fkeep t _ (by rw [hpc]; rfl)⟩
    · intro u
      show local' _ (upd s.pc t _ u)
      by_cases hu : u = t
      · subst hu; rw [upd_same]; trivial
      · rw [upd_ne _ _ hu]
        have hl := loc u
        have hn : ¬ holds (s.pc u) := fun hh => hu (l1.unique hh (by rw [hpc]; trivial))
        cases hx : s.pc u with
        | pop q => rw [hx] at hn; exact absurd trivial hn
        | stopped => rw [hx] at hl; have hl : s.queue = [] := hl; rw [hr] at hl; exact absurd hl (by simp)
        | _ => trivial
    · refine sum_upd_conserve inHand _ _ _ cons ?_
      rw [hpc, hr]
      show ((rest' : Multiset J) + _) + {j} = ((j :: rest' : List J) : Multiset J) + _ + 0
      rw [← Multiset.cons_coe, ← Multiset.singleton_add]
      ac_rfl
  | popCrash t j hpc hq =>
    exact ⟨l1.keep (by rw [hpc]; simp [holds]), loc_keep loc rfl rfl trivial, made_upd mk trivial,
      sum_upd_conserve inHand _ _ _ cons (by rw [hpc]; rfl), done, tot, fkeep t _ (by rw [hpc]; rfl)⟩
  | unlock t j hpc =>
    exact ⟨l1.release (t := t) (by rw [hpc]; trivial) (fun h => h), loc_keep loc rfl rfl trivial, made_upd mk trivial,
      sum_upd_conserve inHand _ _ _ cons (by rw [hpc]; rfl), done, tot,
      frel t (by rw [hpc]; trivial) (by rw [hpc]; rfl)⟩
  | work t j r hpc hg =>
    exact ⟨l1.keep (by rw [hpc]; simp [holds]), loc_keep loc rfl rfl trivial, made_upd mk hg,
      sum_upd_conserve inHand _ _ _ cons (by rw [hpc]; rfl), done, tot, fkeep t _ (by rw [hpc]; rfl)⟩
  | wlock t j r hpc hl =>
    rw [hl] at l1 files
    have hm := mk t
    rw [hpc] at hm
    refine ⟨l1.acquire trivial, loc_keep loc rfl rfl trivial, made_upd mk hm,
      sum_upd_conserve inHand _ _ _ cons (by rw [hpc]; rfl), done, tot, ?_⟩
    simp only [pend, upd_same]
    exact files
  | write1 t j r hpc =>
    have hm := mk t
    rw [hpc] at hm
    have hf := frel t (by rw [hpc]; trivial) (by rw [hpc]; rfl)
    have hl := (l1 t).1 (by rw [hpc]; trivial)
    refine ⟨l1.keep (by rw [hpc]; simp [holds]), loc_keep loc rfl rfl trivial, made_upd mk hm,
      sum_upd_conserve inHand _ _ _ cons (by rw [hpc]; rfl), done, tot, ?_⟩
    simp only [hl, pend, upd_same, ahead]
    exact ⟨by rw [hf.1, List.append_nil], by rw [hf.2]⟩
  | write2 t j r hpc =>
    have hm := mk t
    rw [hpc] at hm
    have hl := (l1 t).1 (by rw [hpc]; trivial)
    rw [hl] at files
    simp only [pend, hpc, ahead] at files
    refine ⟨l1.keep (by rw [hpc]; simp [holds]), loc_keep loc rfl rfl trivial, made_upd mk hm,
      sum_upd_conserve inHand _ _ _ cons (by rw [hpc]; rfl), done, tot, ?_⟩
    simp only [hl, pend, upd_same, ahead]
    exact ⟨by rw [files.1], by rw [files.2, List.append_nil]⟩
  | add t j r hpc =>
    have hm := mk t
    rw [hpc] at hm
    have hl := (l1 t).1 (by rw [hpc]; trivial)
    rw [hl] at files
    simp only [pend, hpc, ahead] at files
    refine ⟨l1.keep (by rw [hpc]; simp [holds]), loc_keep loc rfl rfl trivial, made_upd mk trivial, ?_, ?_, ?_, ?_⟩
    · refine sum_upd_conserve inHand _ _ _ cons ?_
      rw [hpc]
      show (s.queue : Multiset J) + (((s.log ++ [(j, r)]).map Prod.fst : List J) : Multiset J) + 0 = _ + {j}
      rw [List.map_append, ← Multiset.coe_add, add_zero, ← add_assoc]
      rfl
    · intro e he
      rcases List.mem_append.1 he with he | he
      · exact done e he
      · rw [List.mem_singleton] at he; subst he; exact hm
    · show s.total + r.count = _
      rw [tot]; simp
    · simp only [hl, pend, upd_same, ahead]
      rw [files.1, files.2]
      simp
  | wunlock t hpc =>
    exact ⟨l1.release (t := t) (by rw [hpc]; trivial) (fun h => h), loc_keep loc rfl rfl trivial, made_upd mk trivial,
      sum_upd_conserve inHand _ _ _ cons (by rw [hpc]; rfl), done, tot,
      frel t (by rw [hpc]; trivial) (by rw [hpc]; rfl)⟩

theorem inv_reach {J : Type} {n : Nat} {gen : J → Result → Prop} {jobs : List J} {s : St J n}
    (h : Reach (Step gen) (start n jobs) s) : Inv gen jobs s := h.inv (Inv gen jobs) (inv_start gen jobs) (fun _ _ a b => inv_step a b)

/-! ## Termination -/

def rank {J : Type} : PC J → Nat
  | .top => 4 | .wait => 3 | .front => 2 | .pop _ => 1
  | .unlock _ => 11 | .work _ => 10 | .wwait _ _ => 9 | .write1 _ _ => 8 | .write2 _ _ => 7 | .add _ _ => 6 | .wunlock => 5
  | .stopped => 0 | .crashed => 0

def measure {J : Type} {n : Nat} (s : St J n) : Nat := 11 * s.queue.length + ∑ t, rank (s.pc t)

theorem measure_lt {J : Type} {n : Nat} {gen : J → Result → Prop} {s s' : St J n} (st : Step gen s s') : measure s' < measure s := by
  unfold measure
  cases st <;> rename_i hpc <;> first
    | (apply sum_upd_lt rank; simp only [hpc, rank]; omega)
    | (rename_i hpc'; apply sum_upd_lt rank; simp only [hpc', rank]; omega)
    | (rename_i hpc'; apply sum_upd_lt rank; simp only [hpc', hpc, rank, List.length_cons]; omega)

/-! ## C78 -/

/-- **C78.** In every execution that ends with all workers stopped, every job has been done exactly once; the two files consist of the
results of the jobs, in the same order, one piece per job and none torn apart; the total is the sum of what the jobs returned. -/
theorem C78_each_once {J : Type} {n : Nat} (hn : 0 < n) (gen : J → Result → Prop) (jobs : List J) (s : St J n)
    (h : Reach (Step gen) (start n jobs) s) (hs : ∀ t, s.pc t = .stopped) :
    ∃ done : List (J × Result), (done.map Prod.fst).Perm jobs ∧ (∀ e ∈ done, gen e.1 e.2) ∧
      s.out1 = done.flatMap (fun e => e.2.first) ∧ s.out2 = done.flatMap (fun e => e.2.second) ∧
      s.total = (done.map (fun e => e.2.count)).sum := by
  obtain ⟨l1, loc, mk, cons, done, tot, files⟩ := inv_reach h
  have hq : s.queue = [] := by
    have := loc ⟨0, hn⟩
    rw [hs] at this
    exact this
  have hlock : s.lock = none := by
    cases hl : s.lock with
    | none => rfl
    | some t => have := (l1 t).2 hl; rw [hs t] at this; exact absurd this (fun h => h)
  rw [hlock] at files
  simp only [pend, List.append_nil] at files
  rw [hq, sum_zero_of_forall inHand s.pc (fun t => by rw [hs t]; rfl), add_zero, Multiset.coe_nil, zero_add] at cons
  exact ⟨s.log, Multiset.coe_eq_coe.1 cons, done, files.1, files.2, tot⟩

/-- **C78.** No schedule gets stuck: as long as no worker has crashed and some worker has not stopped, some worker can move. -/
theorem C78_no_deadlock {J : Type} {n : Nat} (gen : J → Result → Prop) (hgen : ∀ j, ∃ r, gen j r) (jobs : List J) (s : St J n)
    (h : Reach (Step gen) (start n jobs) s) (hc : ∀ t, s.pc t ≠ .crashed) (hs : ¬ ∀ t, s.pc t = .stopped) : ∃ s', Step gen s s' := by
  obtain ⟨l1, loc, mk, cons, done, tot, files⟩ := inv_reach h
  have run1 : ∀ t, holds (s.pc t) → ∃ s', Step gen s s' := by
    intro t ht
    cases hx : s.pc t with
    | front =>
      cases hq : s.queue with
      | nil => exact ⟨_, Step.frontCrash s t hx hq⟩
      | cons p r => exact ⟨_, Step.front s t p r hx hq⟩
    | pop p =>
      cases hq : s.queue with
      | nil => exact ⟨_, Step.popCrash s t p hx hq⟩
      | cons q r => exact ⟨_, Step.pop s t p q r hx hq⟩
    | unlock p => exact ⟨_, Step.unlock s t p hx⟩
    | write1 p r => exact ⟨_, Step.write1 s t p r hx⟩
    | write2 p r => exact ⟨_, Step.write2 s t p r hx⟩
    | add p r => exact ⟨_, Step.add s t p r hx⟩
    | wunlock => exact ⟨_, Step.wunlock s t hx⟩
    | crashed => exact absurd hx (hc t)
    | _ => rw [hx] at ht; exact absurd ht (fun h => h)
  rw [not_forall] at hs
  obtain ⟨t, ht⟩ := hs
  by_cases h1 : holds (s.pc t)
  · exact run1 t h1
  cases hx : s.pc t with
  | top =>
    by_cases hq : s.queue = []
    · exact ⟨_, Step.topEmpty s t hx hq⟩
    · exact ⟨_, Step.topMore s t hx hq⟩
  | wait =>
    cases hl : s.lock with
    | none => exact ⟨_, Step.lock s t hx hl⟩
    | some u => exact run1 u ((l1 u).2 hl)
  | work p => obtain ⟨r, hr⟩ := hgen p; exact ⟨_, Step.work s t p r hx hr⟩
  | wwait p r =>
    cases hl : s.lock with
    | none => exact ⟨_, Step.wlock s t p r hx hl⟩
    | some u => exact run1 u ((l1 u).2 hl)
  | stopped => exact absurd hx ht
  | _ => rw [hx] at h1; exact absurd trivial h1

/-- **C78.** No schedule runs forever (if the single jobs end). -/
theorem C78_terminates {J : Type} {n : Nat} (gen : J → Result → Prop) (f : Nat → St J n) : ¬ ∀ i, Step gen (f i) (f (i + 1)) := by
  intro h
  have : ∀ i, measure (f i) + i ≤ measure (f 0) := by
    intro i
    induction i with
    | zero => simp
    | succ i ih => have := measure_lt (h i); omega
  have := this (measure (f 0) + 1)
  omega

/-- With one worker, the queue is not empty between the test and the removal. -/
theorem one_worker_inv {J : Type} {gen : J → Result → Prop} {s s' : St J 1}
    (h : (∀ t, s.pc t ≠ .crashed) ∧ (∀ t, s.pc t = .wait ∨ s.pc t = .front → s.queue ≠ []))
    (hl : ∀ t j, s.pc t = .pop j → s.queue ≠ []) (st : Step gen s s') :
    (∀ t, s'.pc t ≠ .crashed) ∧ (∀ t, s'.pc t = .wait ∨ s'.pc t = .front → s'.queue ≠ []) := by
  obtain ⟨h1, h2⟩ := h
  have all : ∀ (t u : Fin 1) (x : PC J), upd s.pc t x u = x := by
    intro t u x
    rw [show u = t from Subsingleton.elim _ _, upd_same]
  cases st with
  | topEmpty t hpc hq => simp [all]
  | topMore t hpc hq => simp [all, hq]
  | lock t hpc hl => simp [all, h2 t (Or.inl hpc)]
  | front t j rest hpc hq => simp [all]
  | frontCrash t hpc hq => exact absurd hq (h2 t (Or.inr hpc))
  | pop t j q rest hpc hq => simp [all]
  | popCrash t j hpc hq => exact absurd hq (hl t j hpc)
  | unlock t j hpc => simp [all]
  | work t j r hpc hg => simp [all]
  | wlock t j r hpc hl => simp [all]
  | write1 t j r hpc => simp [all]
  | write2 t j r hpc => simp [all]
  | add t j r hpc => simp [all]
  | wunlock t hpc => simp [all]

/-- **C78.** With one worker, no execution crashes. -/
theorem C78_one_worker {J : Type} (gen : J → Result → Prop) (jobs : List J) (s : St J 1) (h : Reach (Step gen) (start 1 jobs) s) (t : Fin 1) :
    s.pc t ≠ .crashed := by
  have key : Inv gen jobs s ∧ (∀ t, s.pc t ≠ .crashed) ∧ (∀ t, s.pc t = .wait ∨ s.pc t = .front → s.queue ≠ []) := by
    refine h.inv (fun s => Inv gen jobs s ∧ (∀ t, s.pc t ≠ .crashed) ∧ (∀ t, s.pc t = .wait ∨ s.pc t = .front → s.queue ≠ []))
      ⟨inv_start gen jobs, by simp [start], by simp [start]⟩ ?_
    rintro s s' ⟨a, b⟩ st
    refine ⟨inv_step a st, one_worker_inv b ?_ st⟩
    intro t j hj
    have := a.loc t
    rw [hj] at this
    obtain ⟨r, hr⟩ := this
    rw [hr]; simp
  exact key.2.1 t

/-- With one worker the generator always ends, having done every job once. -/
theorem C78_one_worker_finishes {J : Type} (gen : J → Result → Prop) (hgen : ∀ j, ∃ r, gen j r) (jobs : List J) (s : St J 1)
    (h : Reach (Step gen) (start 1 jobs) s) : ∃ s', Reach (Step gen) s s' ∧ ∀ t, s'.pc t = .stopped := by
  generalize hm : measure s = m
  induction m using Nat.strong_induction_on generalizing s with
  | _ m ih =>
    by_cases hs : ∀ t, s.pc t = .stopped
    · exact ⟨s, Reach.init, hs⟩
    · obtain ⟨s1, h1⟩ := C78_no_deadlock gen hgen jobs s h (C78_one_worker gen jobs s h) hs
      obtain ⟨s2, h2, e⟩ := ih (measure s1) (by rw [← hm]; exact measure_lt h1) s1 (Reach.step h h1) rfl
      exact ⟨s2, (Reach.single h1).trans h2, e⟩

/-! ### Counterexample -/

theorem upd_idem {n : Nat} {A : Type} (pc : Fin n → A) (t : Fin n) (x y : A) : upd (upd pc t x) t y = upd pc t y := Function.update_idem ..

/-- A worker alone does a job. -/
theorem run_job {J : Type} {n : Nat} {gen : J → Result → Prop} (hgen : ∀ j, ∃ r, gen j r) (s : St J n) (t : Fin n) (j : J) (rest : List J)
    (hpc : ∀ u, s.pc u = .top) (hl : s.lock = none) (hq : s.queue = j :: rest) :
    ∃ s', Reach (Step gen) s s' ∧ (∀ u, s'.pc u = .top) ∧ s'.lock = none ∧ s'.queue = rest := by
  obtain ⟨r, hr⟩ := hgen j
  obtain ⟨q, lk, o1, o2, tt, pc, lg⟩ := s
  simp only at hpc hl hq
  subst hl hq
  have a1 := Step.topMore (gen := gen) ⟨j :: rest, none, o1, o2, tt, pc, lg⟩ t (hpc t) (by simp)
  have a2 := Step.lock (gen := gen) ⟨j :: rest, none, o1, o2, tt, upd pc t .wait, lg⟩ t (upd_same ..) rfl
  have a3 := Step.front (gen := gen) ⟨j :: rest, some t, o1, o2, tt, upd (upd pc t .wait) t .front, lg⟩ t j rest (upd_same ..) rfl
  have a4 := Step.pop (gen := gen) ⟨j :: rest, some t, o1, o2, tt, upd (upd (upd pc t .wait) t .front) t (.pop j), lg⟩ t j j rest
    (upd_same ..) rfl
  simp only [upd_idem] at a2 a3 a4
  have a5 := Step.unlock (gen := gen) ⟨rest, some t, o1, o2, tt, upd pc t (.unlock j), lg⟩ t j (upd_same ..)
  have a6 := Step.work (gen := gen) ⟨rest, none, o1, o2, tt, upd pc t (.work j), lg⟩ t j r (upd_same ..) hr
  have a7 := Step.wlock (gen := gen) ⟨rest, none, o1, o2, tt, upd pc t (.wwait j r), lg⟩ t j r (upd_same ..) rfl
  have a8 := Step.write1 (gen := gen) ⟨rest, some t, o1, o2, tt, upd pc t (.write1 j r), lg⟩ t j r (upd_same ..)
  have a9 := Step.write2 (gen := gen) ⟨rest, some t, o1 ++ r.first, o2, tt, upd pc t (.write2 j r), lg⟩ t j r (upd_same ..)
  have a10 := Step.add (gen := gen) ⟨rest, some t, o1 ++ r.first, o2 ++ r.second, tt, upd pc t (.add j r), lg⟩ t j r (upd_same ..)
  have a11 := Step.wunlock (gen := gen) ⟨rest, some t, o1 ++ r.first, o2 ++ r.second, tt + r.count, upd pc t .wunlock, lg ++ [(j, r)]⟩ t
    (upd_same ..)
  simp only [upd_idem] at a5 a6 a7 a8 a9 a10 a11
  refine ⟨_, Reach.step (Reach.step (Reach.step (Reach.step (Reach.step (Reach.step (Reach.step (Reach.step (Reach.step (Reach.step
    (Reach.single a1) a2) a3) a4) a5) a6) a7) a8) a9) a10) a11, ?_, rfl, rfl⟩
  intro u
  show upd pc t .top u = .top
  by_cases hu : u = t
  · subst hu; exact upd_same ..
  · rw [upd_ne _ _ hu]; exact hpc u

/-- **C78, counterexample.** With two or more workers and any jobs at all, there is a schedule in which a worker takes the front of the
empty queue: it has seen a job before locking that another worker takes first. -/
theorem C78_counterexample {J : Type} {n : Nat} (gen : J → Result → Prop) (hgen : ∀ j, ∃ r, gen j r) (jobs : List J) (hj : jobs ≠ [])
    (hn : 2 ≤ n) : ∃ s : St J n, Reach (Step gen) (start n jobs) s ∧ ∃ t, s.pc t = .crashed := by
  -- one worker does all but the last job
  have run : ∀ (l : List J) (s : St J n), (∀ u, s.pc u = .top) → s.lock = none → s.queue = l → l ≠ [] →
      ∃ s', Reach (Step gen) s s' ∧ (∀ u, s'.pc u = .top) ∧ s'.lock = none ∧ ∃ j, s'.queue = [j] := by
    intro l
    induction l with
    | nil => intro s _ _ _ h; exact absurd rfl h
    | cons j l ih =>
      intro s h1 h2 h3 _
      cases l with
      | nil => exact ⟨s, Reach.init, h1, h2, j, h3⟩
      | cons k l =>
        obtain ⟨s1, r1, a, b, c⟩ := run_job hgen s ⟨0, by omega⟩ j (k :: l) h1 h2 h3
        obtain ⟨s2, r2, x⟩ := ih s1 a b c (by simp)
        exact ⟨s2, r1.trans r2, x⟩
  obtain ⟨s, r, h1, h2, j, h3⟩ := run jobs (start n jobs) (fun _ => rfl) rfl rfl hj
  obtain ⟨q, lk, o1, o2, tt, pc, lg⟩ := s
  simp only at h1 h2 h3
  subst h2 h3
  obtain ⟨t, ht⟩ : ∃ t : Fin n, t = ⟨0, by omega⟩ := ⟨_, rfl⟩
  obtain ⟨u, hu⟩ : ∃ u : Fin n, u = ⟨1, by omega⟩ := ⟨_, rfl⟩
  have htu : u ≠ t := by rw [ht, hu]; simp
  have a1 := Step.topMore (gen := gen) ⟨[j], none, o1, o2, tt, pc, lg⟩ u (h1 u) (by simp)
  have a2 := Step.topMore (gen := gen) ⟨[j], none, o1, o2, tt, upd pc u .wait, lg⟩ t ((upd_ne _ _ htu.symm).trans (h1 t)) (by simp)
  have a3 := Step.lock (gen := gen) ⟨[j], none, o1, o2, tt, upd (upd pc u .wait) t .wait, lg⟩ t (upd_same ..) rfl
  have a4 := Step.front (gen := gen) ⟨[j], some t, o1, o2, tt, upd (upd pc u .wait) t .front, lg⟩ t j [] (upd_same ..) rfl
  have a5 := Step.pop (gen := gen) ⟨[j], some t, o1, o2, tt, upd (upd pc u .wait) t (.pop j), lg⟩ t j j [] (upd_same ..) rfl
  have a6 := Step.unlock (gen := gen) ⟨[], some t, o1, o2, tt, upd (upd pc u .wait) t (.unlock j), lg⟩ t j (upd_same ..)
  have a7 := Step.lock (gen := gen) ⟨[], none, o1, o2, tt, upd (upd pc u .wait) t (.work j), lg⟩ u
    ((upd_ne _ _ htu).trans (upd_same ..)) rfl
  have a8 := Step.frontCrash (gen := gen) ⟨[], some u, o1, o2, tt, upd (upd (upd pc u .wait) t (.work j)) u .front, lg⟩ u (upd_same ..) rfl
  simp only [upd_idem] at a3 a4 a5 a6
  exact ⟨_, Reach.step (Reach.step (Reach.step (Reach.step (Reach.step (Reach.step (Reach.step (Reach.step r a1) a2) a3) a4) a5) a6) a7) a8,
    u, upd_same ..⟩

/-- **C78.** For every number of workers there is a schedule that ends well: the hypotheses of `C78_each_once` can be met. -/
theorem C78_can_finish {J : Type} {n : Nat} (hn : 0 < n) (gen : J → Result → Prop) (hgen : ∀ j, ∃ r, gen j r) (jobs : List J) :
    ∃ s : St J n, Reach (Step gen) (start n jobs) s ∧ ∀ t, s.pc t = .stopped := by
  have run : ∀ (l : List J) (s : St J n), (∀ u, s.pc u = .top) → s.lock = none → s.queue = l →
      ∃ s', Reach (Step gen) s s' ∧ (∀ u, s'.pc u = .top) ∧ s'.queue = [] := by
    intro l
    induction l with
    | nil => intro s h1 _ h3; exact ⟨s, Reach.init, h1, h3⟩
    | cons j l ih =>
      intro s h1 h2 h3
      obtain ⟨s1, r1, a, b, c⟩ := run_job hgen s ⟨0, hn⟩ j l h1 h2 h3
      obtain ⟨s2, r2, x⟩ := ih s1 a b c
      exact ⟨s2, r1.trans r2, x⟩
  have fin : ∀ (m : Nat) (s : St J n), measure s = m → (∀ u, s.pc u = .top ∨ s.pc u = .stopped) → s.queue = [] →
      ∃ s', Reach (Step gen) s s' ∧ ∀ t, s'.pc t = .stopped := by
    intro m
    induction m using Nat.strong_induction_on with
    | _ m ih =>
      intro s hm h1 h2
      by_cases hs : ∀ t, s.pc t = .stopped
      · exact ⟨s, Reach.init, hs⟩
      · rw [not_forall] at hs
        obtain ⟨t, ht⟩ := hs
        have st := Step.topEmpty (gen := gen) s t ((h1 t).resolve_right ht) h2
        obtain ⟨s2, r2, e⟩ := ih (measure { s with pc := upd s.pc t .stopped }) (by rw [← hm]; exact measure_lt st) { s with pc := upd s.pc t .stopped } rfl (by
          intro u
          show upd s.pc t .stopped u = .top ∨ upd s.pc t .stopped u = .stopped
          by_cases hu : u = t
          · subst hu; right; exact upd_same ..
          · rw [upd_ne _ _ hu]; exact h1 u) h2
        exact ⟨s2, (Reach.single st).trans r2, e⟩
  obtain ⟨s1, r1, a, b⟩ := run jobs (start n jobs) (fun _ => rfl) rfl rfl
  obtain ⟨s2, r2, e⟩ := fin _ s1 rfl (fun u => Or.inl (a u)) b
  exact ⟨s2, r1.trans r2, e⟩

/-- The hypotheses of `C78_each_once` are met by three workers and two jobs. -/
example : ∃ s : St Nat 3, Reach (Step (fun j r => r = ⟨[j], [j, j], 1⟩)) (start 3 [7, 8]) s ∧ ∀ t, s.pc t = .stopped :=
  C78_can_finish (by decide) (fun j r => r = ⟨[j], [j, j], 1⟩) (fun j => ⟨_, rfl⟩) _

end TDP.Conc.Generator
