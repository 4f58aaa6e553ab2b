import Verif.Kernels.Model
import Mathlib.Tactic.Linarith
import Mathlib.Tactic.Ring
import Mathlib.Tactic.FieldSimp
import Mathlib.Tactic.NormNum
import Mathlib.Tactic.Positivity
import Mathlib.Tactic.LinearCombination
/-!
# Properties of the kernels: C34-C37
-/
namespace TDP.Kernels
open TDP.Boxes

/-! ## C36: distance of two segments -/

/-- Specification: squared distance of the points `P + s A` and `Q + v B`. -/
def dist2At (P Q A B : Pt ℚ) (s v : ℚ) : ℚ :=
  (P 0 + s * A 0 - (Q 0 + v * B 0))^2 + (P 1 + s * A 1 - (Q 1 + v * B 1))^2 + (P 2 + s * A 2 - (Q 2 + v * B 2))^2

/-- Specification: `m` is the squared distance of the segments `P..P+A` and `Q..Q+B`. -/
def IsSegDist (P Q A B : Pt ℚ) (m : ℚ) : Prop :=
  (∃ s v, 0 ≤ s ∧ s ≤ 1 ∧ 0 ≤ v ∧ v ≤ 1 ∧ m = dist2At P Q A B s v) ∧
  ∀ s v, 0 ≤ s → s ≤ 1 → 0 ≤ v → v ≤ 1 → m ≤ dist2At P Q A B s v

/-- The point of segment 1 chosen by the final clamping. -/
def clampPt (P A : Pt ℚ) (t : ℚ) : Pt ℚ := if t ≤ 0 then P else if t ≥ 1 then vadd P A else vaxpy P A t

/-- Clamping to [0,1]. -/
def clamp (t : ℚ) : ℚ := if t ≤ 0 then 0 else if t ≥ 1 then 1 else t

theorem clamp_range (t : ℚ) : 0 ≤ clamp t ∧ clamp t ≤ 1 := by
  unfold clamp
  split
  · norm_num
  · split
    · norm_num
    · constructor <;> linarith

theorem clampPt_dist (P Q A B : Pt ℚ) (t v : ℚ) (Y : Pt ℚ) (hY : ∀ i : Fin 3, Y i = Q i + v * B i) :
    vdot (vsub (clampPt P A t) Y) (vsub (clampPt P A t) Y) = dist2At P Q A B (clamp t) v := by
  unfold clampPt clamp vdot vsub dist2At
  split
  · simp [pt3, hY]; ring
  · split
    · simp [pt3, vadd, hY]; ring
    · simp [pt3, vaxpy, hY]; ring

/-- The line parameter of the nearest points of the two lines, as the code computes it. -/
def lineT (P Q A B : Pt ℚ) : ℚ :=
  if vdot A A * vdot B B - vdot A B * vdot A B = 0 then 0
  else (vdot A (vsub Q P) * vdot B B - vdot B (vsub Q P) * vdot A B) / (vdot A A * vdot B B - vdot A B * vdot A B)

/-- What the code computes, in terms of parameters. -/
theorem segDist_eq (P Q A B : Pt ℚ) (hA : vdot A A ≠ 0) (hB : vdot B B ≠ 0) :
    let t := lineT P Q A B
    let u := (t * vdot A B - vdot B (vsub Q P)) / vdot B B
    segDist P Q A B (vdot A A) (vdot B B) = ((
      if u ≤ 0 then dist2At P Q A B (clamp (vdot A (vsub Q P) / vdot A A)) 0
      else if u ≥ 1 then dist2At P Q A B (clamp ((vdot A B + vdot A (vsub Q P)) / vdot A A)) 1
      else dist2At P Q A B (clamp t) u : ℚ) : WithTop ℚ) := by
  intro t u
  unfold segDist
  simp only
  rw [if_neg (by rintro (h | h); exact hA h; exact hB h)]
  show ((vdot (vsub (clampPt P A _) _) (vsub (clampPt P A _) _) : ℚ) : WithTop ℚ) = _
  congr 1
  change vdot (vsub (clampPt P A (if u ≤ 0 then (Q, vdot A (vsub Q P) / vdot A A)
      else if u ≥ 1 then (vadd Q B, (vdot A B + vdot A (vsub Q P)) / vdot A A) else (vaxpy Q B u, t)).2)
      (if u ≤ 0 then (Q, vdot A (vsub Q P) / vdot A A)
      else if u ≥ 1 then (vadd Q B, (vdot A B + vdot A (vsub Q P)) / vdot A A) else (vaxpy Q B u, t)).1)
    (vsub (clampPt P A (if u ≤ 0 then (Q, vdot A (vsub Q P) / vdot A A)
      else if u ≥ 1 then (vadd Q B, (vdot A B + vdot A (vsub Q P)) / vdot A A) else (vaxpy Q B u, t)).2)
      (if u ≤ 0 then (Q, vdot A (vsub Q P) / vdot A A)
      else if u ≥ 1 then (vadd Q B, (vdot A B + vdot A (vsub Q P)) / vdot A A) else (vaxpy Q B u, t)).1) = _
  by_cases h1 : u ≤ 0
  · rw [if_pos h1, if_pos h1]
    exact clampPt_dist P Q A B _ 0 Q (by intro i; ring)
  · rw [if_neg h1, if_neg h1]
    by_cases h2 : u ≥ 1
    · rw [if_pos h2, if_pos h2]
      exact clampPt_dist P Q A B _ 1 _ (by
        intro i
        fin_cases i <;> simp [vadd, pt3])
    · rw [if_neg h2, if_neg h2]
      exact clampPt_dist P Q A B _ u _ (by
        intro i
        fin_cases i <;> simp [vaxpy, pt3] <;> ring)

/-- The squared distance as a quadratic function. -/
theorem dist2_quad (P Q A B : Pt ℚ) (s v : ℚ) :
    dist2At P Q A B s v = vdot (vsub Q P) (vsub Q P) + v^2 * vdot B B + s^2 * vdot A A +
      2 * v * vdot B (vsub Q P) - 2 * s * vdot A (vsub Q P) - 2 * s * v * vdot A B := by
  unfold dist2At vdot vsub
  simp [pt3]
  ring

theorem quad_nonneg (A B : Pt ℚ) (x y : ℚ) : 0 ≤ x^2 * vdot A A - 2 * x * y * vdot A B + y^2 * vdot B B := by
  have : x^2 * vdot A A - 2 * x * y * vdot A B + y^2 * vdot B B =
      (x * A 0 - y * B 0)^2 + (x * A 1 - y * B 1)^2 + (x * A 2 - y * B 2)^2 := by
    unfold vdot; ring
  rw [this]; positivity

/-- Vanishing gradient at the line parameters. -/
theorem line_opt (P Q A B : Pt ℚ) (hB : vdot B B ≠ 0) :
    let t := lineT P Q A B
    let u := (t * vdot A B - vdot B (vsub Q P)) / vdot B B
    u * vdot B B = t * vdot A B - vdot B (vsub Q P) ∧ t * vdot A A = vdot A (vsub Q P) + u * vdot A B := by
  intro t u
  have hu : u * vdot B B = t * vdot A B - vdot B (vsub Q P) := div_mul_cancel₀ _ hB
  refine ⟨hu, ?_⟩
  have key : t * (vdot A A * vdot B B - vdot A B * vdot A B) =
      vdot A (vsub Q P) * vdot B B - vdot B (vsub Q P) * vdot A B := by
    show lineT P Q A B * _ = _
    unfold lineT
    split
    · next h =>
      -- parallel: the cross product vanishes
      have lag : vdot A A * vdot B B - vdot A B * vdot A B =
          (A 1 * B 2 - A 2 * B 1)^2 + (A 2 * B 0 - A 0 * B 2)^2 + (A 0 * B 1 - A 1 * B 0)^2 := by
        unfold vdot; ring
      rw [lag] at h
      have c0 : A 1 * B 2 - A 2 * B 1 = 0 := by
        have h1 := sq_nonneg (A 1 * B 2 - A 2 * B 1)
        have h2 := sq_nonneg (A 2 * B 0 - A 0 * B 2)
        have h3 := sq_nonneg (A 0 * B 1 - A 1 * B 0)
        have : (A 1 * B 2 - A 2 * B 1)^2 = 0 := by linarith
        exact pow_eq_zero_iff (by norm_num) |>.1 this
      have c1 : A 2 * B 0 - A 0 * B 2 = 0 := by
        have h1 := sq_nonneg (A 1 * B 2 - A 2 * B 1)
        have h2 := sq_nonneg (A 2 * B 0 - A 0 * B 2)
        have h3 := sq_nonneg (A 0 * B 1 - A 1 * B 0)
        have : (A 2 * B 0 - A 0 * B 2)^2 = 0 := by linarith
        exact pow_eq_zero_iff (by norm_num) |>.1 this
      have c2 : A 0 * B 1 - A 1 * B 0 = 0 := by
        have h1 := sq_nonneg (A 1 * B 2 - A 2 * B 1)
        have h2 := sq_nonneg (A 2 * B 0 - A 0 * B 2)
        have h3 := sq_nonneg (A 0 * B 1 - A 1 * B 0)
        have : (A 0 * B 1 - A 1 * B 0)^2 = 0 := by linarith
        exact pow_eq_zero_iff (by norm_num) |>.1 this
      have bc : vdot A (vsub Q P) * vdot B B - vdot B (vsub Q P) * vdot A B =
          (A 1 * B 2 - A 2 * B 1) * ((vsub Q P) 1 * B 2 - (vsub Q P) 2 * B 1) +
          (A 2 * B 0 - A 0 * B 2) * ((vsub Q P) 2 * B 0 - (vsub Q P) 0 * B 2) +
          (A 0 * B 1 - A 1 * B 0) * ((vsub Q P) 0 * B 1 - (vsub Q P) 1 * B 0) := by
        unfold vdot; ring
      rw [bc, c0, c1, c2]; ring
    · next h => exact div_mul_cancel₀ _ h
  have : (t * vdot A A) * vdot B B = (vdot A (vsub Q P) + u * vdot A B) * vdot B B := by
    have e : (vdot A (vsub Q P) + u * vdot A B) * vdot B B = vdot A (vsub Q P) * vdot B B + (u * vdot B B) * vdot A B := by ring
    rw [e, hu]
    linear_combination key
  exact mul_right_cancel₀ hB this

/-- The distance relative to the optimum of the two lines is a quadratic form. -/
theorem dist2_from_opt (P Q A B : Pt ℚ) (t u : ℚ)
    (h1 : u * vdot B B = t * vdot A B - vdot B (vsub Q P)) (h2 : t * vdot A A = vdot A (vsub Q P) + u * vdot A B) (s v : ℚ) :
    dist2At P Q A B s v - dist2At P Q A B t u =
      (s - t)^2 * vdot A A - 2 * (s - t) * (v - u) * vdot A B + (v - u)^2 * vdot B B := by
  rw [dist2_quad, dist2_quad]
  linear_combination (2 * (v - u)) * h1 - (2 * (t - s)) * h2

/-- Best parameter on segment 1 for a fixed point of segment 2. -/
theorem clamp_opt (P Q A B : Pt ℚ) (hA : 0 < vdot A A) (v s : ℚ) (hs0 : 0 ≤ s) (hs1 : s ≤ 1) :
    dist2At P Q A B (clamp ((v * vdot A B + vdot A (vsub Q P)) / vdot A A)) v ≤ dist2At P Q A B s v := by
  set s0 := (v * vdot A B + vdot A (vsub Q P)) / vdot A A with hs
  have h0 : s0 * vdot A A = v * vdot A B + vdot A (vsub Q P) := div_mul_cancel₀ _ (ne_of_gt hA)
  have key : ∀ x : ℚ, dist2At P Q A B s v - dist2At P Q A B x v = vdot A A * ((s - s0)^2 - (x - s0)^2) := by
    intro x
    rw [dist2_quad, dist2_quad]
    linear_combination (2 * (s - x)) * h0
  have hk := key (clamp s0)
  have hc : (clamp s0 - s0)^2 ≤ (s - s0)^2 := by
    unfold clamp
    split
    · next h => nlinarith
    · split
      · next h => nlinarith
      · nlinarith [sq_nonneg (s - s0)]
  nlinarith [mul_nonneg (le_of_lt hA) (sub_nonneg.2 hc)]

theorem vdot_self_nonneg (A : Pt ℚ) : 0 ≤ vdot A A := by
  unfold vdot
  nlinarith [mul_self_nonneg (A 0), mul_self_nonneg (A 1), mul_self_nonneg (A 2)]

/-- C36 (always): the result is the squared distance of a point of the first segment and a point of the second, so
it never underestimates. -/
theorem C36_attained_partial (P Q A B : Pt ℚ) (hA : vdot A A ≠ 0) (hB : vdot B B ≠ 0) :
    ∃ s v, 0 ≤ s ∧ s ≤ 1 ∧ 0 ≤ v ∧ v ≤ 1 ∧
      segDist P Q A B (vdot A A) (vdot B B) = (dist2At P Q A B s v : ℚ) := by
  rw [segDist_eq P Q A B hA hB]
  split
  · exact ⟨_, 0, (clamp_range _).1, (clamp_range _).2, le_refl _, by norm_num, rfl⟩
  · split
    · exact ⟨_, 1, (clamp_range _).1, (clamp_range _).2, by norm_num, le_refl _, rfl⟩
    · next h1 h2 =>
      exact ⟨_, _, (clamp_range _).1, (clamp_range _).2, le_of_lt (not_le.1 h1), le_of_lt (not_le.1 h2), rfl⟩

/-- C36 (partial): the result is the squared distance of the segments whenever the nearest point of the first
line to the second lies on the first segment (`0 ≤ t ≤ 1`; for parallel segments the code takes `t = 0`). Missing: the
code does not clamp `t` before computing `u`, see the counterexample. -/
theorem C36_exact_partial (P Q A B : Pt ℚ) (hA : vdot A A ≠ 0) (hB : vdot B B ≠ 0)
    (ht0 : 0 ≤ lineT P Q A B) (ht1 : lineT P Q A B ≤ 1) :
    ∃ m : ℚ, segDist P Q A B (vdot A A) (vdot B B) = (m : WithTop ℚ) ∧ IsSegDist P Q A B m := by
  have hA' : 0 < vdot A A := lt_of_le_of_ne (vdot_self_nonneg A) (Ne.symm hA)
  obtain ⟨o1, o2⟩ := line_opt P Q A B hB
  have hopt := dist2_from_opt P Q A B _ _ o1 o2
  rw [segDist_eq P Q A B hA hB]
  set t := lineT P Q A B with htdef
  set u := (t * vdot A B - vdot B (vsub Q P)) / vdot B B with hudef
  -- crossing the line v = w between the optimum and a point of the square
  have cross : ∀ w s v : ℚ, 0 ≤ s → s ≤ 1 → ((u ≤ w ∧ w ≤ v) ∨ (v ≤ w ∧ w ≤ u)) →
      ∃ s', 0 ≤ s' ∧ s' ≤ 1 ∧ dist2At P Q A B s' w ≤ dist2At P Q A B s v := by
    intro w s v hs0 hs1 hw
    by_cases hvu : v = u
    · have hwu : w = u := by rcases hw with h | h <;> linarith
      refine ⟨s, hs0, hs1, ?_⟩
      rw [hwu, hvu]
    · have hne : v - u ≠ 0 := sub_ne_zero.2 hvu
      set l := (w - u) / (v - u) with hl
      have hlm : l * (v - u) = w - u := div_mul_cancel₀ _ hne
      have hl0 : 0 ≤ l := by
        rcases hw with h | h
        · exact div_nonneg (by linarith) (by linarith)
        · exact div_nonneg_of_nonpos (by linarith) (by linarith)
      have hl1 : l ≤ 1 := by
        rcases hw with h | h
        · have : 0 < v - u := lt_of_le_of_ne (by linarith) (Ne.symm hne)
          rw [hl, div_le_one this]; linarith
        · have : v - u < 0 := lt_of_le_of_ne (by linarith) hne
          rw [hl, div_le_one_of_neg this]; linarith
      refine ⟨t + l * (s - t), ?_, ?_, ?_⟩
      · nlinarith
      · nlinarith
      · have e1 := hopt (t + l * (s - t)) w
        have e2 := hopt s v
        have hq := quad_nonneg A B (s - t) (v - u)
        have e3 : dist2At P Q A B (t + l * (s - t)) w - dist2At P Q A B t u =
            l^2 * ((s - t)^2 * vdot A A - 2 * (s - t) * (v - u) * vdot A B + (v - u)^2 * vdot B B) := by
          rw [e1, ← hlm]; ring
        have hl2 : l^2 ≤ 1 := by nlinarith
        nlinarith
  refine ⟨_, rfl, ?_⟩
  by_cases h1 : u ≤ 0
  · rw [if_pos h1]
    refine ⟨⟨_, 0, (clamp_range _).1, (clamp_range _).2, le_refl _, by norm_num, rfl⟩, ?_⟩
    intro s v hs0 hs1 hv0 hv1
    obtain ⟨s', a, b, c⟩ := cross 0 s v hs0 hs1 (Or.inl ⟨h1, hv0⟩)
    have := clamp_opt P Q A B hA' 0 s' a b
    rw [zero_mul, zero_add] at this
    exact le_trans this c
  · rw [if_neg h1]
    by_cases h2 : u ≥ 1
    · rw [if_pos h2]
      refine ⟨⟨_, 1, (clamp_range _).1, (clamp_range _).2, by norm_num, le_refl _, rfl⟩, ?_⟩
      intro s v hs0 hs1 hv0 hv1
      obtain ⟨s', a, b, c⟩ := cross 1 s v hs0 hs1 (Or.inr ⟨hv1, h2⟩)
      have := clamp_opt P Q A B hA' 1 s' a b
      rw [one_mul] at this
      exact le_trans this c
    · rw [if_neg h2]
      have hc : clamp t = t := by
        unfold clamp
        split
        · linarith
        · split
          · linarith
          · rfl
      rw [hc]
      refine ⟨⟨t, u, ht0, ht1, le_of_lt (not_le.1 h1), le_of_lt (not_le.1 h2), rfl⟩, ?_⟩
      intro s v _ _ _ _
      have e := hopt s v
      have := quad_nonneg A B (s - t) (v - u)
      linarith

/-- The hypotheses hold for two crossing skew segments, at distance 1. -/
example : let P := pt3 0 0 0; let A := pt3 2 0 0; let Q := pt3 1 (-1) 1; let B : Pt ℚ := pt3 0 2 0
    vdot A A ≠ 0 ∧ vdot B B ≠ 0 ∧ 0 ≤ lineT P Q A B ∧ lineT P Q A B ≤ 1 ∧
    segDist P Q A B (vdot A A) (vdot B B) = ((1 : ℚ) : WithTop ℚ) := by decide +kernel

/-- C36 counterexample: segments (0,0,0)-(1,0,0) and (1,1,0)-(9,-1,0). Two end points are at squared distance 1, but
the code returns 16. -/
theorem C36_counterexample :
    let P := pt3 0 0 0; let A := pt3 1 0 0; let Q := pt3 1 1 0; let B : Pt ℚ := pt3 8 (-2) 0
    vdot A A ≠ 0 ∧ vdot B B ≠ 0 ∧ segDist P Q A B (vdot A A) (vdot B B) = ((16 : ℚ) : WithTop ℚ) ∧
    dist2At P Q A B 1 0 = 1 ∧ ¬ IsSegDist P Q A B 16 := by
  refine ⟨by decide +kernel, by decide +kernel, by decide +kernel, by decide +kernel, ?_⟩
  rintro ⟨_, h⟩
  have := h 1 0 (by norm_num) (by norm_num) (by norm_num) (by norm_num)
  have e : dist2At (pt3 0 0 0) (pt3 1 1 0) (pt3 1 0 0) (pt3 8 (-2) 0) 1 0 = 1 := by decide +kernel
  rw [e] at this
  norm_num at this

/-! ## C37: two sets of segments -/

theorem foldl_min_inner {ι : Type} (f : ι → WithTop ℚ) : ∀ (l : List ι) (m : WithTop ℚ),
    let r := l.foldl (fun m j => if f j < m then f j else m) m
    r ≤ m ∧ (∀ j ∈ l, r ≤ f j) ∧ (r = m ∨ ∃ j ∈ l, r = f j)
  | [], m => ⟨le_refl _, by simp, Or.inl rfl⟩
  | j :: js, m => by
      obtain ⟨a, b, c⟩ := foldl_min_inner f js (if f j < m then f j else m)
      have h : (if f j < m then f j else m) ≤ m ∧ (if f j < m then f j else m) ≤ f j := by
        split
        · next h => exact ⟨le_of_lt h, le_refl _⟩
        · next h => exact ⟨le_refl _, not_lt.1 h⟩
      simp only [List.foldl_cons] at a b c ⊢
      refine ⟨le_trans a h.1, ?_, ?_⟩
      · intro k hk
        rcases List.mem_cons.1 hk with rfl | hk
        · exact le_trans a h.2
        · exact b k hk
      · rcases c with c | ⟨k, hk, c⟩
        · by_cases hj : f j < m
          · right
            exact ⟨j, List.mem_cons_self .., by rw [c, if_pos hj]⟩
          · left; rw [c, if_neg hj]
        · exact Or.inr ⟨k, List.mem_cons_of_mem _ hk, c⟩

/-- C37. Up to 10000 segments in each set: the result is a lower bound of all pairwise results and is one of them,
or infinity if there is no pair (or all pairs are infinite). -/
theorem C37_minimum (d1 d2 : Nat → ℚ) (n1 n2 : Nat) (h1 : n1 ≤ 10000) (h2 : n2 ≤ 10000) :
    (∀ i < n1, ∀ j < n2, segDistSingle d1 d2 n1 n2 ≤ segPair d1 d2 i j) ∧
    (segDistSingle d1 d2 n1 n2 = ⊤ ∨ ∃ i < n1, ∃ j < n2, segDistSingle d1 d2 n1 n2 = segPair d1 d2 i j) ∧
    ((n1 = 0 ∨ n2 = 0) → segDistSingle d1 d2 n1 n2 = ⊤) := by
  have outer : ∀ (l : List Nat) (m : WithTop ℚ),
      let r := l.foldl (fun m i => (List.range n2).foldl (fun m j =>
        if segPair d1 d2 i j < m then segPair d1 d2 i j else m) m) m
      r ≤ m ∧ (∀ i ∈ l, ∀ j < n2, r ≤ segPair d1 d2 i j) ∧ (r = m ∨ ∃ i ∈ l, ∃ j < n2, r = segPair d1 d2 i j) := by
    intro l
    induction l with
    | nil => intro m; exact ⟨le_refl _, by simp, Or.inl rfl⟩
    | cons i is ih =>
      intro m
      obtain ⟨a, b, c⟩ := foldl_min_inner (fun j => segPair d1 d2 i j) (List.range n2) m
      obtain ⟨x, y, z⟩ := ih ((List.range n2).foldl (fun m j => if segPair d1 d2 i j < m then segPair d1 d2 i j else m) m)
      simp only [List.foldl_cons]
      refine ⟨le_trans x a, ?_, ?_⟩
      · intro k hk j hj
        rcases List.mem_cons.1 hk with rfl | hk
        · exact le_trans x (b j (List.mem_range.2 hj))
        · exact y k hk j hj
      · rcases z with z | ⟨k, hk, j, hj, z⟩
        · rcases c with c | ⟨j, hj, c⟩
          · left; rw [z, c]
          · right; exact ⟨i, List.mem_cons_self .., j, List.mem_range.1 hj, by rw [z, c]⟩
        · exact Or.inr ⟨k, List.mem_cons_of_mem _ hk, j, hj, z⟩
  have he : segDistSingle d1 d2 n1 n2 = (List.range n1).foldl (fun m i => (List.range n2).foldl (fun m j =>
      if segPair d1 d2 i j < m then segPair d1 d2 i j else m) m) ⊤ := by
    unfold segDistSingle
    simp only
    rw [if_neg (by omega), if_neg (by omega)]
  obtain ⟨a, b, c⟩ := outer (List.range n1) ⊤
  rw [← he] at a b c
  refine ⟨fun i hi j hj => b i (List.mem_range.2 hi) j hj, ?_, ?_⟩
  · rcases c with c | ⟨i, hi, j, hj, c⟩
    · exact Or.inl c
    · exact Or.inr ⟨i, List.mem_range.1 hi, j, hj, c⟩
  · intro h
    rcases c with c | ⟨i, hi, j, hj, c⟩
    · exact c
    · have := List.mem_range.1 hi
      omega

/-- Beyond 10000 segments the rest is ignored (the assert against it is compiled out). -/
theorem C37_truncates (d1 d2 : Nat → ℚ) (n1 n2 : Nat) :
    segDistSingle d1 d2 n1 n2 = segDistSingle d1 d2 (min n1 10000) (min n2 10000) := by
  have e : ∀ n : Nat, (if n > 10000 then 10000 else n) = min n 10000 := by intro n; split <;> omega
  unfold segDistSingle
  rw [e n1, e n2, e (min n1 10000), e (min n2 10000), min_assoc, min_assoc, min_self]

/-! ## C34, C35: splitting among threads -/

theorem mem_of_interleaving {R : Type} {us : List (List (Nat × R))} {ws : List (Nat × R)} (h : Interleaving us ws) :
    ∀ w, w ∈ ws ↔ ∃ u ∈ us, w ∈ u := by
  induction h with
  | done us hu =>
    intro w
    constructor
    · intro h; simp at h
    · rintro ⟨u, h1, h2⟩
      rw [hu u h1] at h2; exact h2
  | step pre post w u ws _ ih =>
    intro x
    have e1 := ih x
    rw [List.mem_cons, e1]
    constructor
    · rintro (h | ⟨y, hy, hx⟩)
      · exact ⟨w :: u, List.mem_append_right _ (List.mem_cons_self ..), List.mem_cons.2 (Or.inl h)⟩
      · rcases List.mem_append.1 hy with h | h
        · exact ⟨y, List.mem_append_left _ h, hx⟩
        · rcases List.mem_cons.1 h with h | h
          · exact ⟨w :: u, List.mem_append_right _ (List.mem_cons_self ..), List.mem_cons_of_mem _ (h ▸ hx)⟩
          · exact ⟨y, List.mem_append_right _ (List.mem_cons_of_mem _ h), hx⟩
    · rintro ⟨y, hy, hx⟩
      rcases List.mem_append.1 hy with h | h
      · exact Or.inr ⟨y, List.mem_append_left _ h, hx⟩
      · rcases List.mem_cons.1 h with h | h
        · rw [h] at hx
          rcases List.mem_cons.1 hx with hx | hx
          · exact Or.inl hx
          · exact Or.inr ⟨u, List.mem_append_right _ (List.mem_cons_self ..), hx⟩
        · exact Or.inr ⟨y, List.mem_append_right _ (List.mem_cons_of_mem _ h), hx⟩

theorem runWrites_spec {R : Type} (kernel : Nat → R) : ∀ (ws : List (Nat × R)) (a : Arr R),
    (∀ w ∈ ws, w.2 = kernel w.1) → ∀ i,
    ((∃ w ∈ ws, w.1 = i) → runWrites a ws i = kernel i) ∧ ((¬ ∃ w ∈ ws, w.1 = i) → runWrites a ws i = a i)
  | [], a, _, i => ⟨by simp, fun _ => rfl⟩
  | w :: ws, a, h, i => by
      obtain ⟨p, q⟩ := runWrites_spec kernel ws (a.set w) (fun x hx => h x (List.mem_cons_of_mem _ hx)) i
      have e : runWrites a (w :: ws) = runWrites (a.set w) ws := rfl
      rw [e]
      by_cases hex : ∃ w ∈ ws, w.1 = i
      · refine ⟨fun _ => p hex, ?_⟩
        intro hn
        obtain ⟨x, hx, hxi⟩ := hex
        exact absurd ⟨x, List.mem_cons_of_mem _ hx, hxi⟩ hn
      · rw [q hex]
        constructor
        · rintro ⟨x, hx, hxi⟩
          rcases List.mem_cons.1 hx with rfl | hx
          · unfold Arr.set
            rw [if_pos hxi.symm, h x (List.mem_cons_self ..), hxi]
          · exact absurd ⟨x, hx, hxi⟩ hex
        · intro hn
          unfold Arr.set
          rw [if_neg]
          intro hi
          exact hn ⟨w, List.mem_cons_self .., hi.symm⟩

theorem unitWrites_spec {R : Type} (kernel : Nat → R) (c : Nat × Nat) (w : Nat × R) :
    w ∈ unitWrites kernel c ↔ (c.1 ≤ w.1 ∧ w.1 < c.1 + c.2) ∧ w.2 = kernel w.1 := by
  unfold unitWrites
  simp only [List.mem_map, List.mem_range]
  constructor
  · rintro ⟨i, hi, rfl⟩
    exact ⟨⟨by simp, by simp; exact hi⟩, rfl⟩
  · rintro ⟨⟨h1, h2⟩, h3⟩
    refine ⟨w.1 - c.1, by omega, ?_⟩
    have : c.1 + (w.1 - c.1) = w.1 := by omega
    rw [this, ← h3]

theorem mem_takeWhile_range' (p : Nat → Bool) (hp : ∀ i j, i ≤ j → p j = true → p i = true) (i : Nat) :
    ∀ (n a : Nat), i ∈ (List.range' a n).takeWhile p ↔ (a ≤ i ∧ i < a + n) ∧ p i = true
  | 0, a => by simp; try omega
  | n + 1, a => by
      rw [List.range'_succ, List.takeWhile_cons]
      by_cases h : p a = true
      · rw [if_pos h, List.mem_cons, mem_takeWhile_range' p hp i n (a + 1)]
        constructor
        · rintro (rfl | ⟨⟨h1, h2⟩, h3⟩)
          · exact ⟨⟨le_refl _, by omega⟩, h⟩
          · exact ⟨⟨by omega, by omega⟩, h3⟩
        · rintro ⟨⟨h1, h2⟩, h3⟩
          by_cases he : i = a
          · exact Or.inl he
          · exact Or.inr ⟨⟨by omega, by omega⟩, h3⟩
      · rw [if_neg h]
        constructor
        · intro h; simp at h
        · rintro ⟨⟨h1, _⟩, h3⟩
          exact absurd (hp a i h1 h3) h

theorem mem_takeWhile_range (n : Nat) (p : Nat → Bool) (hp : ∀ i j, i ≤ j → p j = true → p i = true) (i : Nat) :
    i ∈ (List.range n).takeWhile p ↔ i < n ∧ p i = true := by
  rw [List.range_eq_range', mem_takeWhile_range' p hp]
  simp

/-- The slices of the distance computation cover exactly the pairs, and different slices are disjoint. -/
theorem distChunks_cover (pairs threads : Nat) (ht : 1 ≤ threads) (i : Nat) :
    (∃ c ∈ distChunks pairs threads, c.1 ≤ i ∧ i < c.1 + c.2) ↔ i < pairs := by
  unfold distChunks
  simp only [List.mem_map]
  have hmono : ∀ a b, a ≤ b → (decide (¬ (pairs / threads + 1) * b ≥ pairs)) = true →
      (decide (¬ (pairs / threads + 1) * a ≥ pairs)) = true := by
    intro a b hab h
    simp only [decide_eq_true_eq, not_le, ge_iff_le] at h ⊢
    exact lt_of_le_of_lt (Nat.mul_le_mul_left _ hab) h
  constructor
  · rintro ⟨c, ⟨a, _, rfl⟩, h1, h2⟩
    simp only at h1 h2
    omega
  · intro hi
    set each := pairs / threads + 1 with heach
    have hpos : 0 < each := Nat.succ_pos _
    have hlt : pairs < each * threads := by
      have := Nat.lt_div_mul_add (a := pairs) (b := threads) (by omega)
      rw [heach, Nat.add_mul]; omega
    have hq := Nat.div_add_mod i each
    have hm := Nat.mod_lt i hpos
    refine ⟨(each * (i / each), min each (pairs - each * (i / each))), ⟨i / each, ?_, rfl⟩, ?_, ?_⟩
    · rw [mem_takeWhile_range _ _ hmono]
      refine ⟨?_, by simp; omega⟩
      split
      · next h0 =>
        have : each = 1 := by omega
        rw [this, Nat.div_one]; exact hi
      · rw [Nat.div_lt_iff_lt_mul hpos, Nat.mul_comm]; omega
    · simp; omega
    · simp only
      omega

theorem distChunks_disjoint (pairs threads : Nat) :
    (distChunks pairs threads).Pairwise (fun a b => a.1 + a.2 ≤ b.1) := by
  unfold distChunks
  simp only
  rw [List.pairwise_map]
  refine List.Pairwise.sublist (List.takeWhile_sublist _) ?_
  refine List.Pairwise.imp ?_ List.pairwise_lt_range
  intro a b hab
  simp only
  have := Nat.mul_le_mul_left (pairs / threads + 1) (Nat.succ_le_of_lt hab)
  rw [Nat.mul_succ] at this
  omega

/-- C34. For every number of pairs, of threads, and every interleaving of the threads' writes, exactly the entries
of the pairs are written, each with the kernel's result for that pair; slices of different threads are disjoint. -/
theorem C34_distance_all_schedules {R : Type} (kernel : Nat → R) (pairs threads : Nat) (ht : 1 ≤ threads)
    (ws : List (Nat × R)) (hws : Interleaving (distUnits kernel pairs threads) ws) (a : Arr R) :
    (∀ i < pairs, runWrites a ws i = kernel i) ∧ (∀ i, pairs ≤ i → runWrites a ws i = a i) ∧
    (distChunks pairs threads).Pairwise (fun a b => a.1 + a.2 ≤ b.1) := by
  have hmem : ∀ w, w ∈ ws ↔ w.1 < pairs ∧ w.2 = kernel w.1 := by
    intro w
    rw [mem_of_interleaving hws]
    unfold distUnits
    simp only [List.mem_flatMap]
    rw [← distChunks_cover pairs threads ht w.1]
    constructor
    · rintro ⟨u, ⟨c, hc, hu⟩, hw⟩
      have : u = unitWrites kernel c := by
        split at hu <;> simpa using hu
      subst this
      obtain ⟨h1, h2⟩ := (unitWrites_spec kernel c w).1 hw
      exact ⟨⟨c, hc, h1⟩, h2⟩
    · rintro ⟨⟨c, hc, h1⟩, h2⟩
      refine ⟨unitWrites kernel c, ⟨c, hc, ?_⟩, (unitWrites_spec kernel c w).2 ⟨h1, h2⟩⟩
      split <;> simp
  have hk := runWrites_spec kernel ws a (fun w hw => ((hmem w).1 hw).2)
  refine ⟨?_, ?_, distChunks_disjoint pairs threads⟩
  · intro i hi
    exact (hk i).1 ⟨(i, kernel i), (hmem _).2 ⟨hi, rfl⟩, rfl⟩
  · intro i hi
    refine (hk i).2 ?_
    rintro ⟨w, hw, rfl⟩
    have := ((hmem w).1 hw).1
    omega

/-- Seven pairs on three threads: slices of 3, 3 and 1; on one thread one slice; two pairs on four threads: two. -/
example : distChunks 7 3 = [(0, 3), (3, 3), (6, 1)] ∧ distChunks 7 1 = [(0, 7)] ∧ distChunks 2 4 = [(0, 1), (1, 1)] := by
  decide

/-- There is always a schedule: one after the other. -/
theorem interleaving_sequential {R : Type} : ∀ us : List (List (Nat × R)), Interleaving us us.flatten
  | [] => Interleaving.done _ (by simp)
  | [] :: us => by
      have ih := interleaving_sequential us
      rw [List.flatten_cons, List.nil_append]
      have key : ∀ us ws, Interleaving us ws → Interleaving ([] :: us : List (List (Nat × R))) ws := by
        intro us ws h
        induction h with
        | done us h => exact Interleaving.done _ (by simpa using h)
        | step pre post w u ws _ ih => exact Interleaving.step ([] :: pre) post w u ws ih
      exact key _ _ ih
  | (w :: u) :: us => by
      have ih := interleaving_sequential (u :: us)
      exact Interleaving.step [] us w u _ ih
  termination_by us => us.length + us.flatten.length

/-- The slices of the intersection test cover only the first `(pairs / threads) * threads` pairs. -/
theorem intChunks_cover (pairs threads : Nat) (i : Nat) :
    (∃ c ∈ intChunks pairs threads, c.1 ≤ i ∧ i < c.1 + c.2) ↔ i < pairs / threads * threads := by
  unfold intChunks
  simp only [List.mem_map]
  have hle : pairs / threads * threads ≤ pairs := Nat.div_mul_le_self _ _
  have hmono : ∀ a b, a ≤ b → (decide (¬ (pairs / threads) * b ≥ pairs)) = true →
      (decide (¬ (pairs / threads) * a ≥ pairs)) = true := by
    intro a b hab h
    simp only [decide_eq_true_eq, not_le, ge_iff_le] at h ⊢
    exact lt_of_le_of_lt (Nat.mul_le_mul_left _ hab) h
  constructor
  · rintro ⟨c, ⟨a, ha, rfl⟩, h1, h2⟩
    rw [mem_takeWhile_range _ _ hmono] at ha
    simp only at h1 h2
    have := Nat.mul_le_mul_left (pairs / threads) (Nat.succ_le_of_lt ha.1)
    rw [Nat.mul_succ] at this
    omega
  · intro hi
    set each := pairs / threads with heach
    have hpos : 0 < each := by
      rcases Nat.eq_zero_or_pos each with h | h
      · rw [h] at hi; simp at hi
      · exact h
    have hq := Nat.div_add_mod i each
    have hm := Nat.mod_lt i hpos
    refine ⟨(each * (i / each), min each (pairs - each * (i / each))), ⟨i / each, ?_, rfl⟩, ?_, ?_⟩
    · rw [mem_takeWhile_range _ _ hmono]
      refine ⟨?_, by simp; omega⟩
      rw [Nat.div_lt_iff_lt_mul hpos, Nat.mul_comm]; exact hi
    · simp; omega
    · simp only
      omega

/-- C35 (partial). For every interleaving, exactly the first `(pairs / threads) * threads` entries are computed, the
others keep their initial value. Missing: the remainder, see `C35_remainder_dropped`. -/
theorem C35_intersect_prefix_partial {R : Type} (kernel : Nat → R) (pairs threads : Nat)
    (ws : List (Nat × R)) (hws : Interleaving (intUnits kernel pairs threads) ws) (a : Arr R) :
    (∀ i < pairs / threads * threads, runWrites a ws i = kernel i) ∧
    (∀ i, pairs / threads * threads ≤ i → runWrites a ws i = a i) := by
  have hmem : ∀ w, w ∈ ws ↔ w.1 < pairs / threads * threads ∧ w.2 = kernel w.1 := by
    intro w
    rw [mem_of_interleaving hws]
    unfold intUnits
    simp only [List.mem_flatMap]
    rw [← intChunks_cover pairs threads w.1]
    constructor
    · rintro ⟨u, ⟨c, hc, hu⟩, hw⟩
      have : u = unitWrites kernel c := by
        split at hu <;> simpa using hu
      subst this
      obtain ⟨h1, h2⟩ := (unitWrites_spec kernel c w).1 hw
      exact ⟨⟨c, hc, h1⟩, h2⟩
    · rintro ⟨⟨c, hc, h1⟩, h2⟩
      refine ⟨unitWrites kernel c, ⟨c, hc, ?_⟩, (unitWrites_spec kernel c w).2 ⟨h1, h2⟩⟩
      split <;> simp
  have hk := runWrites_spec kernel ws a (fun w hw => ((hmem w).1 hw).2)
  constructor
  · intro i hi
    exact (hk i).1 ⟨(i, kernel i), (hmem _).2 ⟨hi, rfl⟩, rfl⟩
  · intro i hi
    refine (hk i).2 ?_
    rintro ⟨w, hw, rfl⟩
    have := ((hmem w).1 hw).1
    omega

/-- C35, when the number of threads divides the number of pairs (in particular with one thread): every entry is
computed. -/
theorem C35_intersect_divisible_partial {R : Type} (kernel : Nat → R) (pairs threads : Nat) (hd : threads ∣ pairs)
    (ws : List (Nat × R)) (hws : Interleaving (intUnits kernel pairs threads) ws) (a : Arr R) :
    ∀ i < pairs, runWrites a ws i = kernel i := by
  have := (C35_intersect_prefix_partial kernel pairs threads ws hws a).1
  rwa [Nat.div_mul_cancel hd] at this

/-- C35 counterexample: with fewer pairs than threads nothing is computed, whatever the schedule: an
intersecting pair keeps the status 0. -/
theorem C35_remainder_dropped (kernel : Nat → Bool) (pairs threads : Nat) (h : pairs < threads)
    (ws : List (Nat × Bool)) (hws : Interleaving (intUnits kernel pairs threads) ws) (i : Nat) :
    runWrites (fun _ => false) ws i = false := by
  have := (C35_intersect_prefix_partial kernel pairs threads ws hws (fun _ => false)).2 i
  rw [Nat.div_eq_of_lt h] at this
  exact this (by omega)

example : intChunks 7 3 = [(0, 2), (2, 2), (4, 2)] ∧ intChunks 2 4 = [(0, 0), (0, 0), (0, 0), (0, 0)] ∧
    intChunks 6 3 = [(0, 2), (2, 2), (4, 2)] := by decide

end TDP.Kernels
