import Verif.Conc.Base
import Mathlib.Data.Multiset.UnionInter
/-!
# C99: who deletes the tiles of a join, and when
(src/join/SpatialJoin.cpp:816-863, src/test/joiner.cpp:103-118)

As `Conc.JoinQueue`, but with the lifetime of the tiles instead of the statistics: a worker uses both tiles of the pair it has taken
during the join (827-834), then deletes them (835-838). `freed` is a ghost: the `delete`s executed so far, in order.
-/
namespace TDP.Conc.TileLife
open TDP.Conc

/-- Where a worker is in `join_unit` (SpatialJoin.cpp:816-842). -/
inductive PC (T : Type)
  | top                   -- 818: `while(!tile_queue.empty())`, no lock held
  | wait                  -- 819: at `pthread_mutex_lock`
  | check                 -- 820, holding the lock
  | front                 -- 824, holding the lock
  | pop (p : T × T)       -- 825, holding the lock
  | unlock (p : T × T)    -- 826, holding the lock
  | work (p : T × T)      -- 827-834: the join reads and decodes both tiles
  | second (p : T × T)    -- 835-837: `if(p.second!=p.first) delete p.second`
  | first (p : T × T)     -- 838: `delete p.first`
  | exitUnlock            -- 821, holding the lock
  | stopped

structure St (T : Type) (n : Nat) where
  queue : List (T × T)
  lock : Option (Fin n)
  pc : Fin n → PC T
  freed : List T

/-- `SpatialJoin::join` up to the creation of the threads (SpatialJoin.cpp:845-855). -/
def start {T : Type} (n : Nat) (pairs : List (T × T)) : St T n := ⟨pairs, none, fun _ => .top, []⟩

/-- One step of one worker. The main thread only looks at the queue and waits (856-862). -/
inductive Step {T : Type} {n : Nat} : St T n → St T n → Prop
  | topEmpty (s t) : s.pc t = .top → s.queue = [] → Step s { s with pc := upd s.pc t .stopped }
  | topMore (s t) : s.pc t = .top → s.queue ≠ [] → Step s { s with pc := upd s.pc t .wait }
  | lock (s t) : s.pc t = .wait → s.lock = none → Step s { s with lock := some t, pc := upd s.pc t .check }
  | checkEmpty (s t) : s.pc t = .check → s.queue = [] → Step s { s with pc := upd s.pc t .exitUnlock }
  | checkMore (s t) : s.pc t = .check → s.queue ≠ [] → Step s { s with pc := upd s.pc t .front }
  | exit (s t) : s.pc t = .exitUnlock → Step s { s with lock := none, pc := upd s.pc t .stopped }
  | front (s t p rest) : s.pc t = .front → s.queue = p :: rest → Step s { s with pc := upd s.pc t (.pop p) }
  | pop (s t p q rest) : s.pc t = .pop p → s.queue = q :: rest → Step s { s with queue := rest, pc := upd s.pc t (.unlock p) }
  | unlock (s t p) : s.pc t = .unlock p → Step s { s with lock := none, pc := upd s.pc t (.work p) }
  | work (s t p) : s.pc t = .work p → Step s { s with pc := upd s.pc t (.second p) }
  | keepSecond (s t p) : s.pc t = .second p → p.2 = p.1 → Step s { s with pc := upd s.pc t (.first p) }
  | freeSecond (s t p) : s.pc t = .second p → p.2 ≠ p.1 → Step s { s with freed := s.freed ++ [p.2], pc := upd s.pc t (.first p) }
  | freeFirst (s t p) : s.pc t = .first p → Step s { s with freed := s.freed ++ [p.1], pc := upd s.pc t .top }

/-! ## Specification -/

variable {T : Type} [DecidableEq T]

/-- The different tiles of a pair. -/
def tilesOf (p : T × T) : List T := if p.2 = p.1 then [p.1] else [p.2, p.1]

/-- The tiles of all pairs; a tile that belongs to several pairs is listed several times. -/
def tiles (pairs : List (T × T)) : List T := pairs.flatMap tilesOf

/-- No tile belongs to two pairs (nor to one pair listed twice). -/
def Unshared (pairs : List (T × T)) : Prop := (tiles pairs).Nodup

/-- The tiles the next step of a worker reads, or deletes. -/
def touches : PC T → List T
  | .work p => tilesOf p
  | .second p => if p.2 = p.1 then [] else [p.2]
  | .first p => [p.1]
  | _ => []

/-! ## Invariants -/

def holds : PC T → Prop
  | .check | .front | .pop _ | .unlock _ | .exitUnlock => True
  | _ => False

/-- The tiles a worker has still to delete. -/
def owes : PC T → Multiset T
  | .unlock p | .work p | .second p => (tilesOf p : Multiset T)
  | .first p => {p.1}
  | _ => 0

def local' {n : Nat} (s : St T n) : PC T → Prop
  | .front => s.queue ≠ []
  | .pop p => ∃ rest, s.queue = p :: rest
  | .exitUnlock | .stopped => s.queue = []
  | _ => True

structure Inv {n : Nat} (pairs : List (T × T)) (s : St T n) : Prop where
  l : LockInv holds s.pc s.lock
  loc : ∀ t, local' s (s.pc t)
  cons : ((tiles s.queue : Multiset T) + (s.freed : Multiset T)) + ∑ t, owes (s.pc t) = (tiles pairs : Multiset T)

theorem inv_start {n : Nat} (pairs : List (T × T)) : Inv pairs (start n pairs) where
  l := fun t => by simp [start, holds]
  loc := fun t => trivial
  cons := by simp [start, owes]

theorem loc_keep {n : Nat} {s s' : St T n} {t : Fin n} {x : PC T} (h : ∀ t, local' s (s.pc t))
    (hq : s'.queue = s.queue) (hp : s'.pc = upd s.pc t x) (hx : local' s x) : ∀ u, local' s' (s'.pc u) := by
  have tr : ∀ y, local' s y → local' s' y := by
    intro y hy
    cases y <;> simp only [local'] at hy ⊢ <;> first | trivial | (rw [hq]; exact hy)
  intro u
  rw [hp]
  by_cases hu : u = t
  · subst hu; rw [upd_same]; exact tr _ hx
  · rw [upd_ne _ _ hu]; exact tr _ (h u)

theorem inv_step {n : Nat} {pairs : List (T × T)} {s s' : St T n} (h : Inv pairs s) (st : Step s s') : Inv pairs s' := by
  obtain ⟨l, loc, cons⟩ := h
  cases st with
  | topEmpty t hpc hq =>
    exact ⟨l.keep (by rw [hpc]; simp [holds]), loc_keep loc rfl rfl hq, sum_upd_conserve owes _ _ _ cons (by rw [hpc]; rfl)⟩
  | topMore t hpc hq =>
    exact ⟨l.keep (by rw [hpc]; simp [holds]), loc_keep loc rfl rfl trivial, sum_upd_conserve owes _ _ _ cons (by rw [hpc]; rfl)⟩
  | lock t hpc hl =>
    rw [hl] at l
    exact ⟨l.acquire trivial, loc_keep loc rfl rfl trivial, sum_upd_conserve owes _ _ _ cons (by rw [hpc]; rfl)⟩
  | checkEmpty t hpc hq =>
    exact ⟨l.keep (by rw [hpc]; simp [holds]), loc_keep loc rfl rfl hq, sum_upd_conserve owes _ _ _ cons (by rw [hpc]; rfl)⟩
  | checkMore t hpc hq =>
    exact ⟨l.keep (by rw [hpc]; simp [holds]), loc_keep loc rfl rfl hq, sum_upd_conserve owes _ _ _ cons (by rw [hpc]; rfl)⟩
  | exit t hpc =>
    have := loc t
    rw [hpc] at this
    exact ⟨l.release (t := t) (by rw [hpc]; trivial) (fun h => h), loc_keep loc rfl rfl this,
      sum_upd_conserve owes _ _ _ cons (by rw [hpc]; rfl)⟩
  | front t p rest hpc hq =>
    exact ⟨l.keep (by rw [hpc]; simp [holds]), loc_keep loc rfl rfl ⟨rest, hq⟩,
      sum_upd_conserve owes _ _ _ cons (by rw [hpc]; rfl)⟩
  | pop t p q rest hpc hq =>
    have hp := loc t
    rw [hpc] at hp
    obtain ⟨rest', hr⟩ := hp
    rw [hr] at hq
    injection hq with e1 e2
    subst e1; subst e2
    refine ⟨l.keep (by rw [hpc]; simp [holds]), ?_, ?_⟩
    · intro u
      show local' _ (upd s.pc t _ u)
      by_cases hu : u = t
      · subst hu; rw [upd_same]; trivial
      · rw [upd_ne _ _ hu]
        have hl := loc u
        have hn : ¬ holds (s.pc u) := fun hh => hu (l.unique hh (by rw [hpc]; trivial))
        cases hx : s.pc u with
        | front => rw [hx] at hn; exact absurd trivial hn
        | pop q => rw [hx] at hn; exact absurd trivial hn
        | exitUnlock => rw [hx] at hn; exact absurd trivial hn
        | stopped => rw [hx] at hl; have hl : s.queue = [] := hl; rw [hr] at hl; exact absurd hl (by simp)
        | _ => trivial
    · refine sum_upd_conserve owes _ _ _ cons ?_
      rw [hpc, hr]
      show ((tiles rest' : Multiset T) + _) + (tilesOf p : Multiset T) = ((tiles (p :: rest') : List T) : Multiset T) + _ + 0
      have e : ((tiles (p :: rest') : List T) : Multiset T) = (tilesOf p : Multiset T) + (tiles rest' : Multiset T) := by
        rw [Multiset.coe_add]; rfl
      rw [e, add_zero]
      show ((tiles rest' : Multiset T) + (s.freed : Multiset T)) + _ = _
      ac_rfl
  | unlock t p hpc =>
    exact ⟨l.release (t := t) (by rw [hpc]; trivial) (fun h => h), loc_keep loc rfl rfl trivial,
      sum_upd_conserve owes _ _ _ cons (by rw [hpc]; rfl)⟩
  | work t p hpc =>
    exact ⟨l.keep (by rw [hpc]; simp [holds]), loc_keep loc rfl rfl trivial, sum_upd_conserve owes _ _ _ cons (by rw [hpc]; rfl)⟩
  | keepSecond t p hpc he =>
    refine ⟨l.keep (by rw [hpc]; simp [holds]), loc_keep loc rfl rfl trivial, sum_upd_conserve owes _ _ _ cons ?_⟩
    rw [hpc]
    simp only [owes, tilesOf, if_pos he]
    rfl
  | freeSecond t p hpc he =>
    refine ⟨l.keep (by rw [hpc]; simp [holds]), loc_keep loc rfl rfl trivial, sum_upd_conserve owes _ _ _ cons ?_⟩
    rw [hpc]
    simp only [owes, tilesOf, if_neg he]
    rw [← Multiset.coe_add, ← Multiset.cons_coe, ← Multiset.singleton_add, ← add_assoc]
    change _ + _ + ({p.2} : Multiset T) + ({p.1} : Multiset T) = _ + _ + (({p.2} : Multiset T) + ({p.1} : Multiset T))
    ac_rfl
  | freeFirst t p hpc =>
    refine ⟨l.keep (by rw [hpc]; simp [holds]), loc_keep loc rfl rfl trivial, sum_upd_conserve owes _ _ _ cons ?_⟩
    rw [hpc]
    simp only [owes]
    rw [← Multiset.coe_add, ← add_assoc, add_zero]
    rfl

theorem inv_reach {n : Nat} {pairs : List (T × T)} {s : St T n} (h : Reach Step (start n pairs) s) : Inv pairs s :=
  h.inv (Inv pairs) (inv_start pairs) (fun _ _ a b => inv_step a b)

theorem touches_owes (x : PC T) : ∀ a ∈ touches x, a ∈ owes x := by
  intro a ha
  cases x with
  | work p => exact ha
  | second p =>
    simp only [touches] at ha
    by_cases he : p.2 = p.1
    · rw [if_pos he] at ha; exact absurd ha (by simp)
    · rw [if_neg he] at ha
      simp only [List.mem_singleton] at ha
      subst ha
      change p.2 ∈ (tilesOf p : Multiset T)
      rw [Multiset.mem_coe, tilesOf, if_neg he]
      simp
  | first p =>
    simp only [touches, List.mem_singleton] at ha
    subst ha
    simp [owes]
  | _ => simp [touches] at ha

/-! ## C99 -/

/-- **C99 (no use after delete).** If no tile belongs to two pairs, then in every reachable state of every schedule, what a worker is about to
read or delete has not been deleted, and nothing has been deleted twice. -/
theorem C99_alive {n : Nat} (pairs : List (T × T)) (hu : Unshared pairs) (s : St T n) (h : Reach Step (start n pairs) s) :
    (∀ t, ∀ a ∈ touches (s.pc t), a ∉ s.freed) ∧ s.freed.Nodup := by
  have cons := (inv_reach h).cons
  have hn : ((tiles pairs : List T) : Multiset T).Nodup := Multiset.coe_nodup.mpr hu
  rw [← cons] at hn
  refine ⟨fun t a ha hf => ?_, ?_⟩
  · have h1 := (Multiset.nodup_iff_count_le_one.mp hn) a
    rw [Multiset.count_add, Multiset.count_add] at h1
    have h2 : 0 < Multiset.count a (s.freed : Multiset T) := Multiset.count_pos.mpr (Multiset.mem_coe.mpr hf)
    have h3 : 0 < Multiset.count a (∑ t, owes (s.pc t)) := by
      rw [Multiset.count_pos]
      have : owes (s.pc t) ≤ ∑ t, owes (s.pc t) :=
        Finset.single_le_sum (f := fun t => owes (s.pc t)) (fun _ _ => Multiset.zero_le _) (Finset.mem_univ t)
      exact Multiset.mem_of_le this (touches_owes _ a ha)
    omega
  · exact Multiset.coe_nodup.mp (Multiset.nodup_of_le (by
      rw [add_comm (tiles s.queue : Multiset T), add_assoc]; exact Multiset.le_add_right _ _) hn)

/-- **C99 (no leak).** When all workers have stopped, the deletes executed are, in some order, one for every pair and every different tile in
it. -/
theorem C99_all_freed {n : Nat} (hn : 0 < n) (pairs : List (T × T)) (s : St T n) (h : Reach Step (start n pairs) s)
    (hs : ∀ t, s.pc t = .stopped) : s.freed.Perm (tiles pairs) := by
  obtain ⟨l, loc, cons⟩ := inv_reach h
  have hq : s.queue = [] := by
    have := loc ⟨0, hn⟩
    rw [hs] at this
    exact this
  rw [hq, sum_zero_of_forall owes s.pc (fun t => by rw [hs t]; rfl), add_zero] at cons
  simp only [tiles, List.flatMap_nil, Multiset.coe_nil, zero_add] at cons
  exact Multiset.coe_eq_coe.1 cons

/-- **C99 (the condition is needed).** If a tile belongs to two pairs, every complete run deletes some tile twice. -/
theorem C99_shared_freed_twice {n : Nat} (hn : 0 < n) (pairs : List (T × T)) (hu : ¬ Unshared pairs) (s : St T n)
    (h : Reach Step (start n pairs) s) (hs : ∀ t, s.pc t = .stopped) : ∃ a, 1 < s.freed.count a := by
  have hp := C99_all_freed hn pairs s h hs
  by_contra hc
  push Not at hc
  exact hu (hp.nodup_iff.mp (List.nodup_iff_count_le_one.mpr hc))

/-! ## Every schedule ends -/

def rank : PC T → Nat
  | .top => 5 | .wait => 4 | .check => 3 | .front => 2 | .pop _ => 1
  | .unlock _ => 9 | .work _ => 8 | .second _ => 7 | .first _ => 6
  | .exitUnlock => 1 | .stopped => 0

def measure {n : Nat} (s : St T n) : Nat := 9 * s.queue.length + ∑ t, rank (s.pc t)

omit [DecidableEq T] in
theorem measure_lt {n : Nat} {s s' : St T n} (st : Step s s') : measure s' < measure s := by
  unfold measure
  cases st <;> rename_i hpc <;> first
    | (apply sum_upd_lt rank; simp only [hpc, rank]; omega)
    | (rename_i hpc'; apply sum_upd_lt rank; simp only [hpc', rank]; omega)
    | (rename_i hpc'; apply sum_upd_lt rank; simp only [hpc', hpc, rank, List.length_cons]; omega)

theorem no_deadlock {n : Nat} (pairs : List (T × T)) (s : St T n) (h : Reach Step (start n pairs) s)
    (hs : ¬ ∀ t, s.pc t = .stopped) : ∃ s', Step s s' := by
  obtain ⟨l, loc, cons⟩ := inv_reach h
  have run1 : ∀ t, holds (s.pc t) → ∃ s', Step s s' := by
    intro t ht
    have hl := loc t
    cases hx : s.pc t with
    | check =>
      by_cases hq : s.queue = []
      · exact ⟨_, Step.checkEmpty s t hx hq⟩
      · exact ⟨_, Step.checkMore s t hx hq⟩
    | front =>
      rw [hx] at hl
      cases hq : s.queue with
      | nil => exact absurd hq hl
      | cons p r => exact ⟨_, Step.front s t p r hx hq⟩
    | pop p =>
      rw [hx] at hl
      obtain ⟨r, hr⟩ := hl
      exact ⟨_, Step.pop s t p p r hx hr⟩
    | unlock p => exact ⟨_, Step.unlock s t p hx⟩
    | exitUnlock => exact ⟨_, Step.exit s t hx⟩
    | _ => rw [hx] at ht; exact absurd ht (fun h => h)
  rw [not_forall] at hs
  obtain ⟨t, ht⟩ := hs
  cases hx : s.pc t with
  | top =>
    by_cases hq : s.queue = []
    · exact ⟨_, Step.topEmpty s t hx hq⟩
    · exact ⟨_, Step.topMore s t hx hq⟩
  | wait =>
    cases hl : s.lock with
    | none => exact ⟨_, Step.lock s t hx hl⟩
    | some u => exact run1 u ((l u).2 hl)
  | work p => exact ⟨_, Step.work s t p hx⟩
  | second p =>
    by_cases he : p.2 = p.1
    · exact ⟨_, Step.keepSecond s t p hx he⟩
    · exact ⟨_, Step.freeSecond s t p hx he⟩
  | first p => exact ⟨_, Step.freeFirst s t p hx⟩
  | stopped => exact absurd hx ht
  | check => exact run1 t (by rw [hx]; trivial)
  | front => exact run1 t (by rw [hx]; trivial)
  | pop p => exact run1 t (by rw [hx]; trivial)
  | unlock p => exact run1 t (by rw [hx]; trivial)
  | exitUnlock => exact run1 t (by rw [hx]; trivial)

/-- From every reachable state the join goes on to a state where all workers have stopped. -/
theorem C99_finishes {n : Nat} (pairs : List (T × T)) (s : St T n) (h : Reach Step (start n pairs) s) :
    ∃ s', Reach Step s s' ∧ ∀ t, s'.pc t = .stopped := by
  generalize hm : measure s = m
  induction m using Nat.strong_induction_on generalizing s with
  | _ m ih =>
    by_cases hs : ∀ t, s.pc t = .stopped
    · exact ⟨s, Reach.init, hs⟩
    · obtain ⟨s1, h1⟩ := no_deadlock pairs s h hs
      obtain ⟨s2, h2, e⟩ := ih (measure s1) (by rw [← hm]; exact measure_lt h1) s1 (Reach.step h h1) rfl
      exact ⟨s2, (Reach.single h1).trans h2, e⟩

/-! ## The pairs of the join program -/

/-- The loop of `main` (joiner.cpp:103-116): `new Tile` gives a tile that did not exist before; with one input file the two tiles of a pair are
the same. The `i`-th turn makes the tiles `2 * i` and, if there is a second file, `2 * i + 1`. -/
def joinerPairs (two : Bool) (repeated : Nat) : List (Nat × Nat) :=
  (List.range repeated).map (fun i => (2 * i, if two then 2 * i + 1 else 2 * i))

/-- **C99 (the join program).** Its pairs share no tile, so that the hypothesis of `C99_alive` is met. -/
theorem C99_joiner (two : Bool) (repeated : Nat) : Unshared (joinerPairs two repeated) := by
  unfold Unshared tiles joinerPairs
  induction repeated with
  | zero => simp
  | succ k ih =>
    rw [List.range_succ, List.map_append, List.flatMap_append, List.nodup_append]
    refine ⟨ih, ?_, ?_⟩
    · cases two <;> simp [tilesOf]
    · intro a ha b hb e
      subst e
      simp only [List.mem_flatMap, List.mem_map, List.mem_range] at ha
      obtain ⟨p, ⟨i, hi, rfl⟩, hp⟩ := ha
      simp only [List.map_cons, List.map_nil, List.flatMap_cons, List.flatMap_nil, List.append_nil] at hb
      cases two <;> simp [tilesOf] at hp hb <;> omega

/-- Three workers, two repetitions of a join of two files: four tiles, all deleted once. -/
example : ∃ s : St Nat 3, Reach Step (start 3 (joinerPairs true 2)) s ∧ (∀ t, s.pc t = .stopped) ∧ s.freed.Perm [1, 0, 3, 2] := by
  obtain ⟨s, h1, h2⟩ := C99_finishes (n := 3) (joinerPairs true 2) _ Reach.init
  exact ⟨s, h1, h2, C99_all_freed (by decide) _ _ h1 h2⟩

/-- Two pairs with a common tile, one worker: it is deleted twice. -/
example : ∃ s : St Nat 1, Reach Step (start 1 [(0, 1), (0, 2)]) s ∧ (∀ t, s.pc t = .stopped) ∧ s.freed.count 0 = 2 := by
  obtain ⟨s, h1, h2⟩ := C99_finishes (n := 1) [((0 : Nat), 1), (0, 2)] _ Reach.init
  exact ⟨s, h1, h2, by rw [(C99_all_freed (by decide) _ _ h1 h2).count_eq]; rfl⟩

end TDP.Conc.TileLife
