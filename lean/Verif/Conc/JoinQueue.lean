import Verif.Conc.Base
import Mathlib.Algebra.Order.Ring.Rat
import Mathlib.Data.Multiset.Basic
/-! C42, C43: the queue of tile pairs and the merging of statistics. -/
namespace TDP.Conc.JoinQueue
open TDP.Conc

/-- The statistics of `query_context` (SpatialJoin.h:24-29, 43). Times are exact numbers: the rounding of `double`
sums (which depends on the order) is not modelled. -/
structure Stats where
  index_time : ℚ
  decode_time : ℚ
  packing_time : ℚ
  computation_time : ℚ
  updatelist_time : ℚ
  overall_time : ℚ
  max_nearest_distance : ℚ

/-- `query_context::merge` (SpatialJoin.h:58-66). -/
def Stats.merge (g c : Stats) : Stats where
  index_time := g.index_time + c.index_time
  decode_time := g.decode_time + c.decode_time
  packing_time := g.packing_time + c.packing_time
  computation_time := g.computation_time + c.computation_time
  updatelist_time := g.updatelist_time + c.updatelist_time
  overall_time := g.overall_time + c.overall_time
  max_nearest_distance := max g.max_nearest_distance c.max_nearest_distance

/-- Where a worker is in `join_unit` (SpatialJoin.cpp:816-842) and in the merging at the end of the three joins
(516-518, 652-654, 795-797). -/
inductive PC (P : Type)
  | top                            -- 818: `while(!tile_queue.empty())`, no lock held
  | wait                           -- 819: at `pthread_mutex_lock`
  | check                          -- 820, holding the lock
  | front                          -- 824, holding the lock
  | pop (p : P)                    -- 825, holding the lock
  | unlock (p : P)                 -- 826, holding the lock
  | work (p : P)                   -- 828-834
  | gwait (p : P) (s : Stats)      -- at `pthread_mutex_lock(&g_lock)`
  | gread (p : P) (s : Stats)      -- `merge`, before reading `global_ctx`
  | gwrite (p : P) (s old : Stats) -- `merge`, before writing `global_ctx`
  | gunlock
  | exitUnlock                     -- 821, holding the lock
  | stopped

/-- Shared state. `log` is a ghost: the pairs joined so far with the statistics of each, in the order of merging. -/
structure St (P : Type) (n : Nat) where
  queue : List P
  lock : Option (Fin n)
  glob : Stats
  glock : Option (Fin n)
  pc : Fin n → PC P
  log : List (P × Stats)

/-- `SpatialJoin::join` up to the creation of the threads (SpatialJoin.cpp:845-855). -/
def start {P : Type} (n : Nat) (pairs : List P) (g0 : Stats) : St P n :=
  { queue := pairs, lock := none, glob := g0, glock := none, pc := fun _ => .top, log := [] }

/-- One step of one worker. The join itself may produce any statistics. The main thread only looks at the queue and
waits (856-862); deleting the tiles and logging (835-839) are left out. -/
inductive Step {P : Type} {n : Nat} : St P n → St P n → Prop
  | topEmpty (s t) : s.pc t = .top → s.queue = [] → Step s { s with pc := upd s.pc t .stopped }
  | topMore (s t) : s.pc t = .top → s.queue ≠ [] → Step s { s with pc := upd s.pc t .wait }
  | lock (s t) : s.pc t = .wait → s.lock = none → Step s { s with lock := some t, pc := upd s.pc t .check }
  | checkEmpty (s t) : s.pc t = .check → s.queue = [] → Step s { s with pc := upd s.pc t .exitUnlock }
  | checkMore (s t) : s.pc t = .check → s.queue ≠ [] → Step s { s with pc := upd s.pc t .front }
  | exit (s t) : s.pc t = .exitUnlock → Step s { s with lock := none, pc := upd s.pc t .stopped }
  | front (s t p rest) : s.pc t = .front → s.queue = p :: rest → Step s { s with pc := upd s.pc t (.pop p) }
  | pop (s t p q rest) : s.pc t = .pop p → s.queue = q :: rest → Step s { s with queue := rest, pc := upd s.pc t (.unlock p) }
  | unlock (s t p) : s.pc t = .unlock p → Step s { s with lock := none, pc := upd s.pc t (.work p) }
  | work (s t p st) : s.pc t = .work p → Step s { s with pc := upd s.pc t (.gwait p st) }
  | glock (s t p st) : s.pc t = .gwait p st → s.glock = none →
      Step s { s with glock := some t, pc := upd s.pc t (.gread p st) }
  | gread (s t p st) : s.pc t = .gread p st → Step s { s with pc := upd s.pc t (.gwrite p st s.glob) }
  | gwrite (s t p st old) : s.pc t = .gwrite p st old →
      Step s { s with glob := old.merge st, log := s.log ++ [(p, st)], pc := upd s.pc t .gunlock }
  | gunlock (s t) : s.pc t = .gunlock → Step s { s with glock := none, pc := upd s.pc t .top }

/-! ## Invariants -/

def holds1 {P : Type} : PC P → Prop
  | .check | .front | .pop _ | .unlock _ | .exitUnlock => True
  | _ => False
def holds2 {P : Type} : PC P → Prop
  | .gread _ _ | .gwrite _ _ _ | .gunlock => True
  | _ => False
/-- The pair a worker has taken from the queue and not yet accounted for. -/
def inHand {P : Type} : PC P → Multiset P
  | .unlock p | .work p | .gwait p _ | .gread p _ | .gwrite p _ _ => {p}
  | _ => 0
def left {P : Type} : PC P → Prop
  | .exitUnlock | .stopped => True
  | _ => False
/-- What a worker relies on. -/
def local' {P : Type} {n : Nat} (s : St P n) : PC P → Prop
  | .front => s.queue ≠ []
  | .pop p => ∃ rest, s.queue = p :: rest
  | .gwrite _ _ old => old = s.glob
  | .exitUnlock | .stopped => s.queue = []
  | _ => True

structure Inv {P : Type} {n : Nat} (pairs : List P) (g0 : Stats) (s : St P n) : Prop where
  l1 : LockInv holds1 s.pc s.lock
  l2 : LockInv holds2 s.pc s.glock
  loc : ∀ t, local' s (s.pc t)
  cons : ((s.queue : Multiset P) + (s.log.map Prod.fst : List P)) + ∑ t, inHand (s.pc t) = (pairs : Multiset P)
  glob : s.glob = s.log.foldl (fun g e => g.merge e.2) g0

theorem inv_start {P : Type} {n : Nat} (pairs : List P) (g0 : Stats) : Inv pairs g0 (start n pairs g0) where
  l1 := fun t => by simp [start, holds1]
  l2 := fun t => by simp [start, holds2]
  loc := fun t => trivial
  cons := by simp [start, inHand]
  glob := rfl

/-- A move that leaves queue, result and log alone keeps what the others rely on. -/
theorem loc_keep {P : Type} {n : Nat} {s s' : St P n} {t : Fin n} {x : PC P} (h : ∀ t, local' s (s.pc t))
    (hq : s'.queue = s.queue) (hg : s'.glob = s.glob) (hp : s'.pc = upd s.pc t x) (hx : local' s x) : ∀ u, local' s' (s'.pc u) := by
  have tr : ∀ y, local' s y → local' s' y := by
    intro y hy
    cases y <;> simp only [local'] at hy ⊢ <;> first | trivial | (rw [hq]; exact hy) | (rw [hg]; exact hy)
  intro u
  rw [hp]
  by_cases hu : u = t
  · subst hu; rw [upd_same]; exact tr _ hx
  · rw [upd_ne _ _ hu]; exact tr _ (h u)

theorem inv_step {P : Type} {n : Nat} {pairs : List P} {g0 : Stats} {s s' : St P n} (h : Inv pairs g0 s) (st : Step s s') :
    Inv pairs g0 s' := by
  obtain ⟨l1, l2, loc, cons, glob⟩ := h
  cases st with
  | topEmpty t hpc hq =>
    exact ⟨l1.keep (by rw [hpc]; simp [holds1]), l2.keep (by rw [hpc]; simp [holds2]), loc_keep loc rfl rfl rfl hq,
      sum_upd_conserve inHand _ _ _ cons (by rw [hpc]; rfl), glob⟩
  | topMore t hpc hq =>
    exact ⟨l1.keep (by rw [hpc]; simp [holds1]), l2.keep (by rw [hpc]; simp [holds2]), loc_keep loc rfl rfl rfl trivial,
      sum_upd_conserve inHand _ _ _ cons (by rw [hpc]; rfl), glob⟩
  | lock t hpc hl =>
    rw [hl] at l1
    exact ⟨l1.acquire trivial, l2.keep (by rw [hpc]; simp [holds2]), loc_keep loc rfl rfl rfl trivial,
      sum_upd_conserve inHand _ _ _ cons (by rw [hpc]; rfl), glob⟩
  | checkEmpty t hpc hq =>
    exact ⟨l1.keep (by rw [hpc]; simp [holds1]), l2.keep (by rw [hpc]; simp [holds2]), loc_keep loc rfl rfl rfl hq,
      sum_upd_conserve inHand _ _ _ cons (by rw [hpc]; rfl), glob⟩
  | checkMore t hpc hq =>
    exact ⟨l1.keep (by rw [hpc]; simp [holds1]), l2.keep (by rw [hpc]; simp [holds2]), loc_keep loc rfl rfl rfl hq,
      sum_upd_conserve inHand _ _ _ cons (by rw [hpc]; rfl), glob⟩
  | exit t hpc =>
    have := loc t
    rw [hpc] at this
    exact ⟨l1.release (t := t) (by rw [hpc]; trivial) (fun h => h), l2.keep (by rw [hpc]; simp [holds2]), loc_keep loc rfl rfl rfl this,
      sum_upd_conserve inHand _ _ _ cons (by rw [hpc]; rfl), glob⟩
  | front t p rest hpc hq =>
    exact ⟨l1.keep (by rw [hpc]; simp [holds1]), l2.keep (by rw [hpc]; simp [holds2]), loc_keep loc rfl rfl rfl ⟨rest, hq⟩,
      sum_upd_conserve inHand _ _ _ cons (by rw [hpc]; rfl), glob⟩
  | pop t p q rest hpc hq =>
    have hp := loc t
    rw [hpc] at hp
    obtain ⟨rest', hr⟩ := hp
    rw [hr] at hq
    injection hq with e1 e2
    subst e1; subst e2
    refine ⟨l1.keep (by rw [hpc]; simp [holds1]), l2.keep (by rw [hpc]; simp [holds2]), ?_, ?_, glob⟩
    · intro u
      show local' _ (upd s.pc t _ u)
      by_cases hu : u = t
      · subst hu; rw [upd_same]; trivial
      · rw [upd_ne _ _ hu]
        have hl := loc u
        have hn : ¬ holds1 (s.pc u) := fun hh => hu (l1.unique hh (by rw [hpc]; trivial))
        cases hx : s.pc u with
        | front => rw [hx] at hn; exact absurd trivial hn
        | pop q => rw [hx] at hn; exact absurd trivial hn
        | exitUnlock => rw [hx] at hn; exact absurd trivial hn
        | stopped => rw [hx] at hl; have hl : s.queue = [] := hl; rw [hr] at hl; exact absurd hl (by simp)
        | gwrite a b c => rw [hx] at hl; exact hl
        | _ => trivial
    · refine sum_upd_conserve inHand _ _ _ cons ?_
      rw [hpc, hr]
      show ((rest' : Multiset P) + _) + {p} = ((p :: rest' : List P) : Multiset P) + _ + 0
      rw [← Multiset.cons_coe, ← Multiset.singleton_add]
      ac_rfl
  | unlock t p hpc =>
    exact ⟨l1.release (t := t) (by rw [hpc]; trivial) (fun h => h), l2.keep (by rw [hpc]; simp [holds2]), loc_keep loc rfl rfl rfl trivial,
      sum_upd_conserve inHand _ _ _ cons (by rw [hpc]; rfl), glob⟩
  | work t p st hpc =>
    exact ⟨l1.keep (by rw [hpc]; simp [holds1]), l2.keep (by rw [hpc]; simp [holds2]), loc_keep loc rfl rfl rfl trivial,
      sum_upd_conserve inHand _ _ _ cons (by rw [hpc]; rfl), glob⟩
  | glock t p st hpc hl =>
    rw [hl] at l2
    exact ⟨l1.keep (by rw [hpc]; simp [holds1]), l2.acquire trivial, loc_keep loc rfl rfl rfl trivial,
      sum_upd_conserve inHand _ _ _ cons (by rw [hpc]; rfl), glob⟩
  | gread t p st hpc =>
    exact ⟨l1.keep (by rw [hpc]; simp [holds1]), l2.keep (by rw [hpc]; simp [holds2]), loc_keep loc rfl rfl rfl rfl,
      sum_upd_conserve inHand _ _ _ cons (by rw [hpc]; rfl), glob⟩
  | gwrite t p st old hpc =>
    have ho := loc t
    rw [hpc] at ho
    refine ⟨l1.keep (by rw [hpc]; simp [holds1]), l2.keep (by rw [hpc]; simp [holds2]), ?_, ?_, ?_⟩
    · intro u
      show local' _ (upd s.pc t _ u)
      by_cases hu : u = t
      · subst hu; rw [upd_same]; trivial
      · rw [upd_ne _ _ hu]
        have hl := loc u
        have hn : ¬ holds2 (s.pc u) := fun hh => hu (l2.unique hh (by rw [hpc]; trivial))
        cases hx : s.pc u with
        | gwrite a b c => rw [hx] at hn; exact absurd trivial hn
        | front => rw [hx] at hl; exact hl
        | pop q => rw [hx] at hl; exact hl
        | exitUnlock => rw [hx] at hl; exact hl
        | stopped => rw [hx] at hl; exact hl
        | _ => trivial
    · refine sum_upd_conserve inHand _ _ _ cons ?_
      rw [hpc]
      show (s.queue : Multiset P) + (((s.log ++ [(p, st)]).map Prod.fst : List P) : Multiset P) + 0 = _ + {p}
      rw [List.map_append, ← Multiset.coe_add, add_zero, ← add_assoc]
      rfl
    · show old.merge st = _
      rw [List.foldl_append, ← glob, ho]
      rfl
  | gunlock t hpc =>
    exact ⟨l1.keep (by rw [hpc]; simp [holds1]), l2.release (t := t) (by rw [hpc]; trivial) (fun h => h), loc_keep loc rfl rfl rfl trivial,
      sum_upd_conserve inHand _ _ _ cons (by rw [hpc]; rfl), glob⟩

theorem inv_reach {P : Type} {n : Nat} {pairs : List P} {g0 : Stats} {s : St P n} (h : Reach Step (start n pairs g0) s) :
    Inv pairs g0 s := h.inv (Inv pairs g0) (inv_start pairs g0) (fun _ _ a b => inv_step a b)

/-! ## Termination -/

def rank {P : Type} : PC P → Nat
  | .top => 5 | .wait => 4 | .check => 3 | .front => 2 | .pop _ => 1
  | .unlock _ => 12 | .work _ => 11 | .gwait _ _ => 10 | .gread _ _ => 9 | .gwrite _ _ _ => 8 | .gunlock => 7
  | .exitUnlock => 1 | .stopped => 0

def measure {P : Type} {n : Nat} (s : St P n) : Nat := 12 * s.queue.length + ∑ t, rank (s.pc t)

theorem measure_lt {P : Type} {n : Nat} {s s' : St P n} (st : Step s s') : measure s' < measure s := by
  unfold measure
  cases st <;> rename_i hpc <;> first
    | (apply sum_upd_lt rank; simp only [hpc, rank]; omega)
    | (rename_i hpc'; apply sum_upd_lt rank; simp only [hpc', rank]; omega)
    | (rename_i hpc'; apply sum_upd_lt rank; simp only [hpc', hpc, rank, List.length_cons]; omega)

/-! ## C42 -/

/-- C42. At every moment of every execution, every pair of the queue is either still queued, or in the hands of
exactly one worker, or joined: counted with multiplicity these make up the pairs given. -/
theorem C42_conserved {P : Type} {n : Nat} (pairs : List P) (g0 : Stats) (s : St P n) (h : Reach Step (start n pairs g0) s) :
    ((s.queue : Multiset P) + (s.log.map Prod.fst : List P)) + ∑ t, inHand (s.pc t) = (pairs : Multiset P) := (inv_reach h).cons

/-- C42. When all workers have stopped, the queue is empty and the pairs joined are, each exactly once, the pairs
given (in some order). There is at least one worker. -/
theorem C42_each_once {P : Type} {n : Nat} (hn : 0 < n) (pairs : List P) (g0 : Stats) (s : St P n)
    (h : Reach Step (start n pairs g0) s) (hs : ∀ t, s.pc t = .stopped) : s.queue = [] ∧ (s.log.map Prod.fst).Perm pairs := by
  obtain ⟨l1, l2, loc, cons, glob⟩ := inv_reach h
  have hq : s.queue = [] := by
    have := loc ⟨0, hn⟩
    rw [hs] at this
    exact this
  refine ⟨hq, ?_⟩
  rw [hq, sum_zero_of_forall inHand s.pc (fun t => by rw [hs t]; rfl), add_zero, Multiset.coe_nil, zero_add] at cons
  exact Multiset.coe_eq_coe.1 cons

/-- C42. No schedule gets stuck: as long as some worker has not stopped, some worker can move. -/
theorem C42_no_deadlock {P : Type} {n : Nat} (pairs : List P) (g0 : Stats) (s : St P n)
    (h : Reach Step (start n pairs g0) s) (hs : ¬ ∀ t, s.pc t = .stopped) : ∃ s', Step s s' := by
  obtain ⟨l1, l2, loc, cons, glob⟩ := inv_reach h
  have run1 : ∀ t, holds1 (s.pc t) → ∃ s', Step s s' := by
    intro t ht
    have hl := loc t
    cases hx : s.pc t with
    | check =>
      by_cases hq : s.queue = []
      · exact ⟨_, Step.checkEmpty s t hx hq⟩
      · exact ⟨_, Step.checkMore s t hx hq⟩
    | front =>
      rw [hx] at hl
      cases hq : s.queue with
      | nil => exact absurd hq hl
      | cons p r => exact ⟨_, Step.front s t p r hx hq⟩
    | pop p =>
      rw [hx] at hl
      obtain ⟨r, hr⟩ := hl
      exact ⟨_, Step.pop s t p p r hx hr⟩
    | unlock p => exact ⟨_, Step.unlock s t p hx⟩
    | exitUnlock => exact ⟨_, Step.exit s t hx⟩
    | _ => rw [hx] at ht; exact absurd ht (fun h => h)
  have run2 : ∀ t, holds2 (s.pc t) → ∃ s', Step s s' := by
    intro t ht
    cases hx : s.pc t with
    | gread p st => exact ⟨_, Step.gread s t p st hx⟩
    | gwrite p st old => exact ⟨_, Step.gwrite s t p st old hx⟩
    | gunlock => exact ⟨_, Step.gunlock s t hx⟩
    | _ => rw [hx] at ht; exact absurd ht (fun h => h)
  rw [not_forall] at hs
  obtain ⟨t, ht⟩ := hs
  by_cases h1 : holds1 (s.pc t)
  · exact run1 t h1
  by_cases h2 : holds2 (s.pc t)
  · exact run2 t h2
  cases hx : s.pc t with
  | top =>
    by_cases hq : s.queue = []
    · exact ⟨_, Step.topEmpty s t hx hq⟩
    · exact ⟨_, Step.topMore s t hx hq⟩
  | wait =>
    cases hl : s.lock with
    | none => exact ⟨_, Step.lock s t hx hl⟩
    | some u => exact run1 u ((l1 u).2 hl)
  | work p => exact ⟨_, Step.work s t p ⟨0, 0, 0, 0, 0, 0, 0⟩ hx⟩
  | gwait p st =>
    cases hl : s.glock with
    | none => exact ⟨_, Step.glock s t p st hx hl⟩
    | some u => exact run2 u ((l2 u).2 hl)
  | stopped => exact absurd hx ht
  | check => rw [hx] at h1; exact absurd trivial h1
  | front => rw [hx] at h1; exact absurd trivial h1
  | pop p => rw [hx] at h1; exact absurd trivial h1
  | unlock p => rw [hx] at h1; exact absurd trivial h1
  | exitUnlock => rw [hx] at h1; exact absurd trivial h1
  | gread p st => rw [hx] at h2; exact absurd trivial h2
  | gwrite p st o => rw [hx] at h2; exact absurd trivial h2
  | gunlock => rw [hx] at h2; exact absurd trivial h2

/-- C42. No schedule runs forever (if each single join ends). -/
theorem C42_terminates {P : Type} {n : Nat} (f : Nat → St P n) : ¬ ∀ i, Step (f i) (f (i + 1)) := by
  intro h
  have : ∀ i, measure (f i) + i ≤ measure (f 0) := by
    intro i
    induction i with
    | zero => simp
    | succ i ih => have := measure_lt (h i); omega
  have := this (measure (f 0) + 1)
  omega

/-- So from every reachable state the join can only go on to a state where all workers have stopped. -/
theorem C42_finishes {P : Type} {n : Nat} (pairs : List P) (g0 : Stats) (s : St P n) (h : Reach Step (start n pairs g0) s) :
    ∃ s', Reach Step s s' ∧ ∀ t, s'.pc t = .stopped := by
  generalize hm : measure s = m
  induction m using Nat.strong_induction_on generalizing s with
  | _ m ih =>
    by_cases hs : ∀ t, s.pc t = .stopped
    · exact ⟨s, Reach.init, hs⟩
    · obtain ⟨s1, h1⟩ := C42_no_deadlock pairs g0 s h hs
      obtain ⟨s2, h2, e⟩ := ih (measure s1) (by rw [← hm]; exact measure_lt h1) s1 (Reach.step h h1) rfl
      exact ⟨s2, (Reach.single h1).trans h2, e⟩

/-- The hypotheses of `C42_each_once` are met, e.g. by three workers and two equal pairs. -/
example : ∃ s : St Nat 3, Reach Step (start 3 [7, 7] ⟨0, 0, 0, 0, 0, 0, 0⟩) s ∧ ∀ t, s.pc t = .stopped :=
  C42_finishes _ _ _ Reach.init

/-! ## C43 -/

/-- C43. After the join, each total is the total before plus the sum over all joined pairs (which are the given pairs,
`C42_each_once`) of their statistics; the maximum is the largest of them. -/
theorem C43_totals {P : Type} {n : Nat} (pairs : List P) (g0 : Stats) (s : St P n) (h : Reach Step (start n pairs g0) s) :
    s.glob.index_time = g0.index_time + (s.log.map (fun e => e.2.index_time)).sum ∧
    s.glob.decode_time = g0.decode_time + (s.log.map (fun e => e.2.decode_time)).sum ∧
    s.glob.packing_time = g0.packing_time + (s.log.map (fun e => e.2.packing_time)).sum ∧
    s.glob.computation_time = g0.computation_time + (s.log.map (fun e => e.2.computation_time)).sum ∧
    s.glob.updatelist_time = g0.updatelist_time + (s.log.map (fun e => e.2.updatelist_time)).sum ∧
    s.glob.overall_time = g0.overall_time + (s.log.map (fun e => e.2.overall_time)).sum ∧
    (∀ e ∈ s.log, e.2.max_nearest_distance ≤ s.glob.max_nearest_distance) ∧
    g0.max_nearest_distance ≤ s.glob.max_nearest_distance ∧
    (s.glob.max_nearest_distance = g0.max_nearest_distance ∨ ∃ e ∈ s.log, s.glob.max_nearest_distance = e.2.max_nearest_distance) := by
  rw [(inv_reach h).glob]
  have sums : ∀ (f : Stats → ℚ), (∀ a b : Stats, f (a.merge b) = f a + f b) → ∀ (l : List (P × Stats)) (g : Stats),
      f (l.foldl (fun g e => g.merge e.2) g) = f g + (l.map (fun e => f e.2)).sum := by
    intro f hf l
    induction l with
    | nil => intro g; simp
    | cons e l ih => intro g; rw [List.foldl_cons, ih, hf, List.map_cons, List.sum_cons, add_assoc]
  have maxs : ∀ (l : List (P × Stats)) (g : Stats),
      (∀ e ∈ l, e.2.max_nearest_distance ≤ (l.foldl (fun g e => g.merge e.2) g).max_nearest_distance) ∧
      g.max_nearest_distance ≤ (l.foldl (fun g e => g.merge e.2) g).max_nearest_distance ∧
      ((l.foldl (fun g e => g.merge e.2) g).max_nearest_distance = g.max_nearest_distance ∨
        ∃ e ∈ l, (l.foldl (fun g e => g.merge e.2) g).max_nearest_distance = e.2.max_nearest_distance) := by
    intro l
    induction l with
    | nil => intro g; exact ⟨by simp, le_refl _, Or.inl rfl⟩
    | cons e l ih =>
      intro g
      obtain ⟨a, b, c⟩ := ih (g.merge e.2)
      rw [List.foldl_cons]
      have hm : (g.merge e.2).max_nearest_distance = max g.max_nearest_distance e.2.max_nearest_distance := rfl
      rw [hm] at b c
      refine ⟨?_, le_trans (le_max_left _ _) b, ?_⟩
      · intro x hx
        rcases List.mem_cons.1 hx with rfl | hx
        · exact le_trans (le_max_right _ _) b
        · exact a x hx
      · rcases c with c | ⟨x, hx, c⟩
        · rcases max_choice g.max_nearest_distance e.2.max_nearest_distance with m | m
          · left; rw [c, m]
          · right; exact ⟨e, List.mem_cons_self .., by rw [c, m]⟩
        · right; exact ⟨x, List.mem_cons_of_mem _ hx, c⟩
  exact ⟨sums _ (fun _ _ => rfl) _ _, sums _ (fun _ _ => rfl) _ _, sums _ (fun _ _ => rfl) _ _, sums _ (fun _ _ => rfl) _ _,
    sums _ (fun _ _ => rfl) _ _, sums _ (fun _ _ => rfl) _ _, maxs _ _⟩

end TDP.Conc.JoinQueue
