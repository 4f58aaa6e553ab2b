import Verif.Conc.JoinQueue
import Mathlib.Tactic.Linarith
import Mathlib.Tactic.Positivity
import Mathlib.Tactic.FieldSimp
import Mathlib.Tactic.Ring
import Mathlib.Tactic.NormNum
/-!
# C114: the time report of a join

The timers of the three joins, the merging of their results by the workers, and what `report` prints. The clock is a nondecreasing
sequence of readings; readings of other parts of the program (and of other threads) are left out, which leaves a nondecreasing sequence.
Numbers are exact.
-/
namespace TDP.Conc.Report
open TDP.Conc TDP.Conc.JoinQueue

/-! ### Timers -/

/-- The state of a join as far as its timers go: readings of the clock made so far, `start`, and `ctx`. -/
structure W where
  k : Nat
  start : ℚ
  ctx : Stats

/-- `ctx.x_time += get_time_elapsed(start, false)` (util.h:39-50; in milliseconds): one reading. `add` says which total. -/
def lap (t : Nat → ℚ) (add : Stats → ℚ → Stats) (w : W) : W := { k := w.k + 1, start := w.start, ctx := add w.ctx (t w.k - w.start) }

/-- `logt(…, start)` (util.h:64-82): `time_string` reads the clock, `get_time_elapsed(start, true)` reads it twice and keeps the second
reading in `start`. -/
def logt (t : Nat → ℚ) (w : W) : W := { w with k := w.k + 3, start := t (w.k + 2) }

/-- Readings that do not concern `start` (`log`, `logt` with another timer, `get_cur_time`). -/
def tick (n : Nat) (w : W) : W := { w with k := w.k + n }

def addIndex (s : Stats) (x : ℚ) : Stats := { s with index_time := s.index_time + x }
def addDecode (s : Stats) (x : ℚ) : Stats := { s with decode_time := s.decode_time + x }
def addPacking (s : Stats) (x : ℚ) : Stats := { s with packing_time := s.packing_time + x }
def addComputation (s : Stats) (x : ℚ) : Stats := { s with computation_time := s.computation_time + x }
def addUpdatelist (s : Stats) (x : ℚ) : Stats := { s with updatelist_time := s.updatelist_time + x }

/-- The times of a new `query_context` (SpatialJoin.h:24-29), with the greatest nearest distance `m` the join will find (C52). -/
def fresh (m : ℚ) : Stats := ⟨0, 0, 0, 0, 0, 0, m⟩

/-- One round of `intersect` (SpatialJoin.cpp:686-792): `log` (692), decode (726-728), packing (759-760), computation (768-769),
updatelist (783-784), `logt` of the round (791). -/
def intersectRound (t : Nat → ℚ) (w : W) : W :=
  tick 3 (logt t (lap t addUpdatelist (logt t (lap t addComputation (logt t (lap t addPacking (logt t (lap t addDecode (tick 1 w)))))))))

/-- `SpatialJoin::intersect` (675-793): `start` is read first, then `very_start`, from reading number `k0` on; `rounds` rounds. -/
def intersect (t : Nat → ℚ) (m : ℚ) (k0 rounds : Nat) : Stats :=
  let w := (intersectRound t)^[rounds] (logt t (lap t addIndex ⟨k0 + 2, t k0, fresh m⟩))
  { w.ctx with overall_time := t w.k - t (k0 + 1) }

/-- `calculate_distance` (SpatialJoin.cpp:307, 320-321 with `--aabb`, 400-401 without): it has its own `start`; what goes to the
packing time is added to the context of its caller. -/
def calculate (t : Nat → ℚ) (w : W) : W := tick 3 { k := w.k + 2, start := w.start, ctx := addPacking w.ctx (t (w.k + 1) - t w.k) }

/-- One round of `within` (432-513) or `nearest_neighbor` (546-649): `iter_start`, `log`, decode (463-464, 582-583); if no segment is filled,
another `log` and the next round (465-468, 584-587); otherwise the distances (472, 592), computation (474-475, 594-595), updatelist (508-509, 645-646) and
`logt` of the round (512, 649). -/
def distanceRound (t : Nat → ℚ) (w : W) (unfilled : Bool) : W :=
  let w := logt t (lap t addDecode (tick 2 w))
  if unfilled then tick 1 w
  else tick 3 (logt t (lap t addUpdatelist (logt t (lap t addComputation (calculate t w)))))

/-- `SpatialJoin::within` and `SpatialJoin::nearest_neighbor` (423-515, 530-651). `broke`: the loop ended with `break` after reading
`iter_start` (433-437, 547-551). -/
def distance (t : Nat → ℚ) (m : ℚ) (k0 : Nat) (rounds : List Bool) (broke : Bool) : Stats :=
  let w := rounds.foldl (distanceRound t) (logt t (lap t addIndex ⟨k0 + 2, t k0, fresh m⟩))
  { w.ctx with overall_time := t (w.k + (if broke then 1 else 0)) - t (k0 + 1) }

/-- The numbers `report` prints: a line each, and the three of the line `analysis`. -/
structure Printed where
  total : ℚ
  index : ℚ
  decode : ℚ
  packing : ℚ
  computation : ℚ
  updatelist : ℚ
  other : ℚ
  analysis : ℚ × ℚ × ℚ

/-- `query_context::report(t)` (SpatialJoin.h:68-86). `none`: every number but the first is a division by zero (`nan`). -/
def report (g : Stats) (repeated : Nat) (t : ℚ) : Option Printed :=
  if g.overall_time = 0 then none
  else some
    { total := t
      index := t * g.index_time / g.overall_time
      decode := t * g.decode_time / g.overall_time
      packing := t * g.packing_time / g.overall_time
      computation := t * g.computation_time / g.overall_time
      updatelist := t * g.updatelist_time / g.overall_time
      other := t * (g.overall_time - g.decode_time - g.computation_time - g.index_time) / g.overall_time
      analysis := (t * g.index_time / g.overall_time / repeated, t * g.decode_time / g.overall_time / repeated,
        t * (g.computation_time + g.packing_time + g.updatelist_time) / g.overall_time / repeated) }

/-! ### Specification -/

/-- Which join: intersection, or one that needs distances (`within`, `nn`). -/
inductive Kind
  | intersect
  | distance
  deriving DecidableEq

/-- `s` are the statistics of a join of this kind of one pair of tiles, on some nondecreasing clock, with any number of rounds; the clock advanced
by `gap` between the very first reading and the second. -/
def Timed (kind : Kind) (s : Stats) (gap : ℚ) : Prop :=
  ∃ (t : Nat → ℚ) (m : ℚ) (k0 : Nat), Monotone t ∧ gap = t (k0 + 1) - t k0 ∧ match kind with
    | .intersect => ∃ rounds, s = intersect t m k0 rounds
    | .distance => ∃ rounds broke, s = distance t m k0 rounds broke

/-! ### One pair of tiles -/

/-- What is known of the totals: `x` is the time up to the present `start`. -/
structure Ok (kind : Kind) (s : Stats) (x : ℚ) : Prop where
  index : 0 ≤ s.index_time
  decode : 0 ≤ s.decode_time
  packing : 0 ≤ s.packing_time
  computation : 0 ≤ s.computation_time
  updatelist : 0 ≤ s.updatelist_time
  sum : s.index_time + s.decode_time + s.computation_time + s.updatelist_time + (if kind = .intersect then s.packing_time else 0) ≤ x
  twice : kind = .distance → s.packing_time ≤ s.computation_time

theorem Ok.mono {kind : Kind} {s : Stats} {x y : ℚ} (h : Ok kind s x) (hxy : x ≤ y) : Ok kind s y := { h with sum := h.sum.trans hxy }

theorem Ok.merge {kind : Kind} {a b : Stats} {x y : ℚ} (ha : Ok kind a x) (hb : Ok kind b y) : Ok kind (a.merge b) (x + y) where
  index := add_nonneg ha.index hb.index
  decode := add_nonneg ha.decode hb.decode
  packing := add_nonneg ha.packing hb.packing
  computation := add_nonneg ha.computation hb.computation
  updatelist := add_nonneg ha.updatelist hb.updatelist
  sum := by
    have h1 := ha.sum
    have h2 := hb.sum
    cases kind <;> simp only [Stats.merge, if_true, reduceCtorEq, if_false] at h1 h2 ⊢ <;> linarith
  twice := fun h => add_le_add (ha.twice h) (hb.twice h)

/-- The invariant of the loops: `s0` is the first reading. -/
structure Inv (kind : Kind) (t : Nat → ℚ) (s0 : ℚ) (w : W) : Prop where
  ok : Ok kind w.ctx (w.start - s0)
  start : w.start ≤ t w.k

theorem Inv.tick {kind : Kind} {t : Nat → ℚ} (ht : Monotone t) {s0 : ℚ} {w : W} (h : Inv kind t s0 w) (n : Nat) : Inv kind t s0 (tick n w) :=
  ⟨h.ok, h.start.trans (ht (Nat.le_add_right _ _))⟩

/-- A lap followed by `logt` keeps the invariant, if `add` adds to one of the totals. -/
theorem Inv.lap {kind : Kind} {t : Nat → ℚ} (ht : Monotone t) {s0 : ℚ} {w : W} (h : Inv kind t s0 w) {add : Stats → ℚ → Stats}
    (hadd : ∀ s x y, Ok kind s x → 0 ≤ y → Ok kind (add s y) (x + y)) : Inv kind t s0 (logt t (lap t add w)) := by
  refine ⟨?_, ht (by simp [logt, Report.lap])⟩
  have h1 := hadd _ _ (t w.k - w.start) h.ok (by linarith [h.start])
  refine h1.mono ?_
  show w.start - s0 + (t w.k - w.start) ≤ t (w.k + 1 + 2) - s0
  linarith [ht (show w.k ≤ w.k + 1 + 2 by omega)]

theorem ok_index {kind : Kind} : ∀ s x y, Ok kind s x → 0 ≤ y → Ok kind (addIndex s y) (x + y) := fun s x y h hy =>
  { h with index := add_nonneg h.index hy, sum := by have := h.sum; simp only [addIndex]; linarith }

theorem ok_decode {kind : Kind} : ∀ s x y, Ok kind s x → 0 ≤ y → Ok kind (addDecode s y) (x + y) := fun s x y h hy =>
  { h with decode := add_nonneg h.decode hy, sum := by have := h.sum; simp only [addDecode]; linarith }

theorem ok_updatelist {kind : Kind} : ∀ s x y, Ok kind s x → 0 ≤ y → Ok kind (addUpdatelist s y) (x + y) := fun s x y h hy =>
  { h with updatelist := add_nonneg h.updatelist hy, sum := by have := h.sum; simp only [addUpdatelist]; linarith }

theorem ok_computation {kind : Kind} : ∀ s x y, Ok kind s x → 0 ≤ y → Ok kind (addComputation s y) (x + y) := fun s x y h hy =>
  { h with
    computation := add_nonneg h.computation hy
    sum := by have := h.sum; simp only [addComputation]; linarith
    twice := fun e => (h.twice e).trans (by simp only [addComputation]; linarith) }

theorem ok_packing : ∀ s x y, Ok .intersect s x → 0 ≤ y → Ok .intersect (addPacking s y) (x + y) := fun s x y h hy =>
  { h with
    packing := add_nonneg h.packing hy
    sum := by have := h.sum; simp only [addPacking, if_true] at this ⊢; linarith
    twice := fun e => by cases e }

theorem inv_first {kind : Kind} {t : Nat → ℚ} (ht : Monotone t) (m : ℚ) (k0 : Nat) :
    Inv kind t (t k0) (logt t (lap t addIndex ⟨k0 + 2, t k0, fresh m⟩)) := by
  refine Inv.lap ht ⟨⟨le_refl _, le_refl _, le_refl _, le_refl _, le_refl _, ?_, fun _ => le_refl _⟩, ht (Nat.le_add_right _ _)⟩ ok_index
  cases kind <;> simp [fresh]

theorem inv_intersect {t : Nat → ℚ} (ht : Monotone t) {s0 : ℚ} {w : W} (h : Inv .intersect t s0 w) (n : Nat) :
    Inv .intersect t s0 ((intersectRound t)^[n] w) := by
  induction n generalizing w with
  | zero => exact h
  | succ n ih => exact ih ((((((h.tick ht 1).lap ht ok_decode).lap ht ok_packing).lap ht ok_computation).lap ht ok_updatelist).tick ht 3)

theorem inv_distance {t : Nat → ℚ} (ht : Monotone t) {s0 : ℚ} {w : W} (h : Inv .distance t s0 w) (l : List Bool) :
    Inv .distance t s0 (l.foldl (distanceRound t) w) := by
  induction l generalizing w with
  | nil => exact h
  | cons b l ih =>
    refine ih ?_
    have h1 := (h.tick ht 2).lap ht ok_decode
    unfold distanceRound
    generalize logt t (lap t addDecode (Report.tick 2 w)) = v at h1 ⊢
    cases b with
    | true => exact h1.tick ht 1
    | false =>
      refine Inv.tick ht (Inv.lap ht ?_ ok_updatelist) 3
      -- the packing time is part of the computation time
      have hs := h1.start
      have e1 := ht (show v.k ≤ v.k + 1 by omega)
      have e2 := ht (show v.k + 1 ≤ v.k + 2 + 3 by omega)
      have e3 := ht (show v.k + 2 + 3 ≤ v.k + 2 + 3 + 1 + 2 by omega)
      refine ⟨⟨h1.ok.index, h1.ok.decode, ?_, ?_, h1.ok.updatelist, ?_, ?_⟩, ht (by simp [logt, Report.lap])⟩
      · exact add_nonneg h1.ok.packing (by linarith)
      · show 0 ≤ v.ctx.computation_time + (t (v.k + 2 + 3) - v.start)
        linarith [h1.ok.computation]
      · have := h1.ok.sum
        show v.ctx.index_time + v.ctx.decode_time + (v.ctx.computation_time + (t (v.k + 2 + 3) - v.start)) + v.ctx.updatelist_time + 0 ≤
          t (v.k + 2 + 3 + 1 + 2) - s0
        simp only [reduceCtorEq, if_false] at this
        linarith
      · intro _
        have := h1.ok.twice rfl
        show v.ctx.packing_time + (t (v.k + 1) - t v.k) ≤ v.ctx.computation_time + (t (v.k + 2 + 3) - v.start)
        linarith

theorem ok_timed {kind : Kind} {s : Stats} {gap : ℚ} (h : Timed kind s gap) : Ok kind s (s.overall_time + gap) := by
  obtain ⟨t, m, k0, ht, rfl, h⟩ := h
  cases kind with
  | intersect =>
    obtain ⟨rounds, rfl⟩ := h
    have hi := inv_intersect ht (inv_first ht m k0) rounds
    unfold intersect
    generalize (intersectRound t)^[rounds] _ = w at hi ⊢
    have ho := hi.ok.mono (show w.start - t k0 ≤ (t w.k - t (k0 + 1)) + (t (k0 + 1) - t k0) by linarith [hi.start])
    exact ⟨ho.index, ho.decode, ho.packing, ho.computation, ho.updatelist, ho.sum, ho.twice⟩
  | distance =>
    obtain ⟨rounds, broke, rfl⟩ := h
    have hi := inv_distance ht (inv_first ht m k0) rounds
    unfold distance
    generalize rounds.foldl (distanceRound t) _ = w at hi ⊢
    have ho := hi.ok.mono (show w.start - t k0 ≤ (t (w.k + (if broke then 1 else 0)) - t (k0 + 1)) + (t (k0 + 1) - t k0) by
      have := ht (show w.k ≤ w.k + (if broke then 1 else 0) by omega)
      linarith [hi.start])
    exact ⟨ho.index, ho.decode, ho.packing, ho.computation, ho.updatelist, ho.sum, ho.twice⟩

/-! ### The whole join -/

theorem ok_foldl {P : Type} {kind : Kind} (gap : P × Stats → ℚ) (l : List (P × Stats)) (hl : ∀ e ∈ l, Timed kind e.2 (gap e)) :
    ∀ (g : Stats) (x : ℚ), Ok kind g (g.overall_time + x) →
      Ok kind (l.foldl (fun g e => g.merge e.2) g) ((l.foldl (fun g e => g.merge e.2) g).overall_time + (x + (l.map gap).sum)) := by
  induction l with
  | nil => intro g x h; simpa using h
  | cons e l ih =>
    intro g x h
    have h1 := h.merge (ok_timed (hl e List.mem_cons_self))
    have h2 := ih (fun e' he' => hl e' (List.mem_cons_of_mem _ he')) (g.merge e.2) (x + gap e) (h1.mono (le_of_eq (by
      show _ = g.overall_time + e.2.overall_time + (x + gap e)
      ring)))
    rw [List.foldl_cons, List.map_cons, List.sum_cons, ← add_assoc x]
    exact h2

/-- **C114 (partial): the lines of the report add up.** Any number of workers, any schedule, any pairs of tiles, any clock: if `report` prints numbers
(for a total time that is not negative), then the lines index, decode, computation and other add up to the total; the lines but the last are not negative.
Let `gaps` be the share of the total that passed between the first two readings of the clock of every join.
- Intersection: packing and updatelist are parts of other, up to `gaps`.
- Distances: packing is part of computation, and updatelist is part of other, up to `gaps`.
Missing: "other" itself can be negative by up to `gaps` (`C114_counterexample_negative`). -/
theorem C114_lines_partial {P : Type} {n : Nat} {kind : Kind} {pairs : List P} {m0 : ℚ} {s : St P n}
    (h : Reach Step (start n pairs (fresh m0)) s) (gap : P × Stats → ℚ) (hl : ∀ e ∈ s.log, Timed kind e.2 (gap e))
    {repeated : Nat} {total : ℚ} (ht : 0 ≤ total) {p : Printed} (hp : report s.glob repeated total = some p) :
    let gaps := total * (s.log.map gap).sum / s.glob.overall_time
    p.total = total ∧ p.index + p.decode + p.computation + p.other = p.total ∧
      0 ≤ p.index ∧ 0 ≤ p.decode ∧ 0 ≤ p.packing ∧ 0 ≤ p.computation ∧ 0 ≤ p.updatelist ∧
      (kind = .intersect → p.packing + p.updatelist ≤ p.other + gaps) ∧
      (kind = .distance → p.packing ≤ p.computation ∧ p.updatelist ≤ p.other + gaps) := by
  have hok : Ok kind s.glob (s.glob.overall_time + (0 + (s.log.map gap).sum)) := by
    rw [(inv_reach h).glob]
    refine ok_foldl gap s.log hl (fresh m0) 0 ⟨le_refl _, le_refl _, le_refl _, le_refl _, le_refl _, ?_, fun _ => le_refl _⟩
    cases kind <;> simp [fresh]
  have hov : 0 ≤ s.glob.overall_time := by
    rw [(C43_totals pairs (fresh m0) s h).2.2.2.2.2.1]
    refine add_nonneg (le_refl _) (List.sum_nonneg ?_)
    intro x hx
    obtain ⟨e, he, rfl⟩ := List.mem_map.1 hx
    obtain ⟨t, m, k0, hm, _, hk⟩ := hl e he
    cases kind with
    | intersect =>
      obtain ⟨rounds, hk⟩ := hk
      rw [hk]
      have hw : ∀ (n : Nat) (w : W), w.k ≤ ((intersectRound t)^[n] w).k := by
        intro n
        induction n with
        | zero => intro w; exact le_refl _
        | succ n ih => intro w; exact le_trans (by simp only [intersectRound, tick, logt, lap]; omega) (ih _)
      have := hm (show k0 + 1 ≤ _ from le_trans (by simp only [logt, lap]; omega) (hw rounds (logt t (lap t addIndex ⟨k0 + 2, t k0, fresh m⟩))))
      exact sub_nonneg.2 this
    | distance =>
      obtain ⟨rounds, broke, hk⟩ := hk
      rw [hk]
      have hw : ∀ (l : List Bool) (w : W), w.k ≤ (l.foldl (distanceRound t) w).k := by
        intro l
        induction l with
        | nil => intro w; exact le_refl _
        | cons b l ih =>
          intro w
          refine le_trans ?_ (ih _)
          cases b <;> simp only [distanceRound, calculate, tick, logt, lap, if_true, Bool.false_eq_true, if_false] <;> omega
      have := hm (show k0 + 1 ≤ _ + (if broke then 1 else 0) from le_trans (le_trans (by simp only [logt, lap]; omega)
        (hw rounds (logt t (lap t addIndex ⟨k0 + 2, t k0, fresh m⟩)))) (Nat.le_add_right _ (if broke then 1 else 0)))
      exact sub_nonneg.2 this
  unfold report at hp
  by_cases h0 : s.glob.overall_time = 0
  · rw [if_pos h0] at hp; cases hp
  rw [if_neg h0] at hp
  obtain rfl := Option.some.inj hp
  have hpos : 0 < s.glob.overall_time := lt_of_le_of_ne hov (Ne.symm h0)
  have hd : ∀ x, 0 ≤ x → 0 ≤ total * x / s.glob.overall_time := fun x hx => by positivity
  have hle : ∀ x y, x ≤ y → total * x / s.glob.overall_time ≤ total * y / s.glob.overall_time := fun x y hxy =>
    div_le_div_of_nonneg_right (mul_le_mul_of_nonneg_left hxy ht) hov
  refine ⟨rfl, ?_, hd _ hok.index, hd _ hok.decode, hd _ hok.packing, hd _ hok.computation, hd _ hok.updatelist, ?_, ?_⟩
  · show total * _ / _ + total * _ / _ + total * _ / _ + total * _ / _ = total
    field_simp
    ring
  · intro hk
    subst hk
    have h1 := hok.sum
    simp only [if_true] at h1
    show total * _ / _ + total * _ / _ ≤ total * _ / _ + total * _ / _
    rw [← add_div, ← add_div, ← mul_add, ← mul_add]
    exact hle _ _ (by linarith)
  · intro hk
    subst hk
    have h1 := hok.sum
    simp only [reduceCtorEq, if_false] at h1
    refine ⟨hle _ _ (hok.twice rfl), ?_⟩
    show total * _ / _ ≤ total * _ / _ + total * _ / _
    rw [← add_div, ← mul_add]
    exact hle _ _ (by linarith)

/-- **C114 (partial): the line `analysis`.** Its three numbers times the repetitions are, for an intersection join, at most the total time (and the
gaps); for a join with distances that holds only after taking off the packing time once, which is counted both as computation and as packing. -/
theorem C114_analysis_partial {P : Type} {n : Nat} {kind : Kind} {pairs : List P} {m0 : ℚ} {s : St P n}
    (h : Reach Step (start n pairs (fresh m0)) s) (gap : P × Stats → ℚ) (hl : ∀ e ∈ s.log, Timed kind e.2 (gap e))
    {repeated : Nat} (hr : repeated ≠ 0) {total : ℚ} (ht : 0 ≤ total) {p : Printed} (hp : report s.glob repeated total = some p) :
    let gaps := total * (s.log.map gap).sum / s.glob.overall_time
    let sum := (p.analysis.1 + p.analysis.2.1 + p.analysis.2.2) * repeated
    sum = p.index + p.decode + p.computation + p.packing + p.updatelist ∧ (kind = .intersect → sum ≤ total + gaps) ∧
      (kind = .distance → sum - p.packing ≤ total + gaps) := by
  obtain ⟨h1, h2, -, -, -, -, -, h3, h4⟩ := C114_lines_partial h gap hl ht hp
  have hr' : (repeated : ℚ) ≠ 0 := by exact_mod_cast hr
  have hs : (p.analysis.1 + p.analysis.2.1 + p.analysis.2.2) * repeated = p.index + p.decode + p.computation + p.packing + p.updatelist := by
    unfold report at hp
    by_cases h0 : s.glob.overall_time = 0
    · rw [if_pos h0] at hp; cases hp
    rw [if_neg h0] at hp
    obtain rfl := Option.some.inj hp
    show (total * _ / _ / _ + total * _ / _ / _ + total * (_ + _ + _) / _ / _) * (repeated : ℚ) = _
    field_simp
    ring
  refine ⟨hs, ?_, ?_⟩
  · intro hk
    have := h3 hk
    rw [hs]
    linarith
  · intro hk
    have := (h4 hk).2
    rw [hs]
    linarith

/-- **C114: nothing to join.** Without a pair of tiles (`--repeat 0`) nothing but the total is a number. -/
theorem C114_nothing {P : Type} {n : Nat} {m0 : ℚ} {s : St P n} (h : Reach Step (start n ([] : List P) (fresh m0)) s) (repeated : Nat) (total : ℚ) :
    report s.glob repeated total = none := by
  have hc : s.log = [] := by
    have hb := C42_conserved [] (fresh m0) s h
    have : (s.log.map Prod.fst : Multiset P) ≤ 0 := by
      have h0 : (([] : List P) : Multiset P) = 0 := rfl
      rw [h0] at hb
      simp at hb
      simp [hb]
    simpa using this
  have := (C43_totals [] (fresh m0) s h).2.2.2.2.2.1
  rw [hc] at this
  exact if_pos (by simpa [fresh] using this)

/-! ### A run with one worker, and the counterexamples -/

/-- One worker joins one pair, with any statistics. -/
theorem one_run (st : Stats) (m0 : ℚ) : ∃ s : St Unit 1, Reach Step (start 1 [()] (fresh m0)) s ∧ s.log = [((), st)] ∧
    s.glob = (fresh m0).merge st ∧ ∀ t, s.pc t = .stopped := by
  have r0 := Reach.init (step := Step) (s0 := start 1 [()] (fresh m0))
  have r1 := r0.step (Step.topMore _ 0 rfl (by simp [start]))
  have r2 := r1.step (Step.lock _ 0 rfl rfl)
  have r3 := r2.step (Step.checkMore _ 0 rfl (by simp [start]))
  have r4 := r3.step (Step.front _ 0 () [] rfl rfl)
  have r5 := r4.step (Step.pop _ 0 () () [] rfl rfl)
  have r6 := r5.step (Step.unlock _ 0 () rfl)
  have r7 := r6.step (Step.work _ 0 () st rfl)
  have r8 := r7.step (Step.glock _ 0 () st rfl rfl)
  have r9 := r8.step (Step.gread _ 0 () st rfl)
  have r10 := r9.step (Step.gwrite _ 0 () st _ rfl)
  have r11 := r10.step (Step.gunlock _ 0 rfl)
  have r12 := r11.step (Step.topEmpty _ 0 rfl rfl)
  exact ⟨_, r12, rfl, rfl, fun t => by rw [Subsingleton.elim t 0]; rfl⟩

/-- A clock that stands at 0 and goes on by one millisecond with each reading from number `a` on. -/
def from' (a : Nat) (i : Nat) : ℚ := ((i - a : Nat) : ℚ)

theorem from_mono (a : Nat) : Monotone (from' a) := fun _ _ h => Nat.cast_le.2 (Nat.sub_le_sub_right h a)

/-- **C114, counterexample: packing is counted twice.** A within or nearest-neighbour join of one pair in one round, on a clock that goes from 0 to 10 while
the segments are packed: the numbers of the line `analysis` add up to twice the total. -/
theorem C114_counterexample_analysis : ∃ (t : Nat → ℚ) (s : St Unit 1) (p : Printed), Monotone t ∧
    Reach Step (start 1 [()] (fresh 0)) s ∧ (∀ t, s.pc t = .stopped) ∧ s.log = [((), distance t 0 0 [false] false)] ∧ t 1 - t 0 = 0 ∧
    report s.glob 1 10 = some p ∧ p.analysis.1 + p.analysis.2.1 + p.analysis.2.2 = 20 := by
  let t : Nat → ℚ := fun i => if i ≤ 12 then 0 else 10
  obtain ⟨s, h1, h2, h3, h4⟩ := one_run (distance t 0 0 [false] false) 0
  have hm : Monotone t := by
    intro i j h
    show (if i ≤ 12 then (0 : ℚ) else 10) ≤ if j ≤ 12 then 0 else 10
    by_cases hj : j ≤ 12
    · rw [if_pos hj, if_pos (h.trans hj)]
    · rw [if_neg hj]; by_cases hi : i ≤ 12
      · rw [if_pos hi]; norm_num
      · rw [if_neg hi]
  have hs : distance t 0 0 [false] false = ⟨0, 0, 10, 10, 0, 10, 0⟩ := by
    simp [distance, distanceRound, calculate, logt, lap, tick, addIndex, addDecode, addPacking, addComputation, addUpdatelist, fresh, t]
  have hp : report s.glob 1 10 = some ⟨10, 0, 0, 10, 10, 0, 0, 0, 0, 20⟩ := by
    rw [h3, hs]
    simp [report, Stats.merge, fresh]
    norm_num
  exact ⟨t, s, _, hm, h1, h4, h2, by simp [t], hp, by norm_num⟩

/-- **C114, counterexample: a negative line.** An intersection join of one pair that has no candidates, on a clock that goes on by 10 between the first two
readings (the thread is interrupted between them) and by 5 while the boxes are compared: index is three times the total and other is negative. -/
theorem C114_counterexample_negative : ∃ (t : Nat → ℚ) (s : St Unit 1) (p : Printed), Monotone t ∧
    Reach Step (start 1 [()] (fresh 0)) s ∧ (∀ t, s.pc t = .stopped) ∧ s.log = [((), intersect t 0 0 0)] ∧
    report s.glob 1 5 = some p ∧ p.index = 15 ∧ p.other = -10 := by
  let t : Nat → ℚ := fun i => if i = 0 then 0 else if i = 1 then 10 else 15
  obtain ⟨s, h1, h2, h3, h4⟩ := one_run (intersect t 0 0 0) 0
  have hm : Monotone t := by
    intro i j h
    show (if i = 0 then (0 : ℚ) else if i = 1 then 10 else 15) ≤ if j = 0 then 0 else if j = 1 then 10 else 15
    by_cases a : i = 0 <;> by_cases b : i = 1 <;> by_cases c : j = 0 <;> by_cases d : j = 1 <;> simp_all <;> first | omega | norm_num
  have hs : intersect t 0 0 0 = ⟨15, 0, 0, 0, 0, 5, 0⟩ := by
    simp [intersect, logt, lap, addIndex, fresh, t]
    norm_num
  have hp : report s.glob 1 5 = some ⟨5, 15, 0, 0, 0, 0, -10, 15, 0, 0⟩ := by
    rw [h3, hs]
    simp [report, Stats.merge, fresh]
    norm_num
  exact ⟨t, s, _, hm, h1, h4, h2, hp, rfl, rfl⟩

/-- The hypotheses of the theorems are met by complete runs of both kinds in which every number is printed, on a clock that goes on with every reading but
the first: an intersection join with one round, and a join with distances with two rounds, the first of which fills nothing. -/
example : ∃ (s : St Unit 1) (p : Printed), Reach Step (start 1 [()] (fresh 0)) s ∧ (∀ e ∈ s.log, Timed .intersect e.2 0) ∧ s.log ≠ [] ∧
    report s.glob 1 25 = some p ∧ p.packing = 1 ∧ p.other = 21 := by
  obtain ⟨s, h1, h2, h3, h4⟩ := one_run (intersect (from' 1) 0 0 1) 0
  have hs : intersect (from' 1) 0 0 1 = ⟨1, 2, 1, 1, 1, 25, 0⟩ := by
    simp [intersect, intersectRound, logt, lap, tick, addIndex, addDecode, addPacking, addComputation, addUpdatelist, fresh, from']
    norm_num
  have hp : report s.glob 1 25 = some ⟨25, 1, 2, 1, 1, 1, 21, 1, 2, 3⟩ := by
    rw [h3, hs]
    simp [report, Stats.merge, fresh]
    norm_num
  refine ⟨s, _, h1, ?_, by simp [h2], hp, rfl, rfl⟩
  intro e he
  rw [h2, List.mem_singleton] at he
  subst he
  exact ⟨from' 1, 0, 0, from_mono 1, by norm_num [from'], 1, rfl⟩

/-- (Distances.) -/
example : ∃ (s : St Unit 1) (p : Printed), Reach Step (start 1 [()] (fresh 0)) s ∧ (∀ e ∈ s.log, Timed .distance e.2 0) ∧ s.log ≠ [] ∧
    report s.glob 1 35 = some p ∧ p.packing = 1 ∧ p.other = 21 := by
  obtain ⟨s, h1, h2, h3, h4⟩ := one_run (distance (from' 1) 0 0 [true, false] true) 0
  have hs : distance (from' 1) 0 0 [true, false] true = ⟨1, 7, 1, 6, 1, 35, 0⟩ := by
    simp [distance, distanceRound, calculate, logt, lap, tick, addIndex, addDecode, addPacking, addComputation, addUpdatelist, fresh, from']
    norm_num
  have hp : report s.glob 1 35 = some ⟨35, 1, 7, 1, 6, 1, 21, 1, 7, 8⟩ := by
    rw [h3, hs]
    simp [report, Stats.merge, fresh]
    norm_num
  refine ⟨s, _, h1, ?_, by simp [h2], hp, rfl, rfl⟩
  intro e he
  rw [h2, List.mem_singleton] at he
  subst he
  exact ⟨from' 1, 0, 0, from_mono 1, by norm_num [from'], [true, false], true, rfl⟩

end TDP.Conc.Report
