import Verif.Kernels.Props
/-! C36, the whole picture: when `SegDist` returns the squared distance of two segments. -/
namespace TDP.Kernels
open TDP.Boxes

/-- The parameters of the two points whose squared distance `SegDist` returns (SegDist.cpp:42-76): on segment 1 and on
segment 2. -/
def chosen (P Q A B : Pt ℚ) : ℚ × ℚ :=
  let t := lineT P Q A B
  let u := (t * vdot A B - vdot B (vsub Q P)) / vdot B B
  if u ≤ 0 then (clamp (vdot A (vsub Q P) / vdot A A), 0)
  else if u ≥ 1 then (clamp ((vdot A B + vdot A (vsub Q P)) / vdot A A), 1)
  else (clamp t, u)

theorem segDist_chosen (P Q A B : Pt ℚ) (hA : vdot A A ≠ 0) (hB : vdot B B ≠ 0) :
    segDist P Q A B (vdot A A) (vdot B B) = ((dist2At P Q A B (chosen P Q A B).1 (chosen P Q A B).2 : ℚ) : WithTop ℚ) := by
  rw [segDist_eq P Q A B hA hB]
  unfold chosen
  simp only
  by_cases h1 : (lineT P Q A B * vdot A B - vdot B (vsub Q P)) / vdot B B ≤ 0
  · rw [if_pos h1, if_pos h1]
  · rw [if_neg h1, if_neg h1]
    by_cases h2 : (lineT P Q A B * vdot A B - vdot B (vsub Q P)) / vdot B B ≥ 1
    · rw [if_pos h2, if_pos h2]
    · rw [if_neg h2, if_neg h2]

theorem chosen_range (P Q A B : Pt ℚ) : 0 ≤ (chosen P Q A B).1 ∧ (chosen P Q A B).1 ≤ 1 ∧ 0 ≤ (chosen P Q A B).2 ∧ (chosen P Q A B).2 ≤ 1 := by
  unfold chosen
  simp only
  split
  · exact ⟨(clamp_range _).1, (clamp_range _).2, le_refl _, by norm_num⟩
  · split
    · exact ⟨(clamp_range _).1, (clamp_range _).2, by norm_num, le_refl _⟩
    · next h1 h2 => exact ⟨(clamp_range _).1, (clamp_range _).2, le_of_lt (not_le.1 h1), le_of_lt (not_le.1 h2)⟩

/-- A slope that never leads down at once is not negative. -/
theorem slope_nonneg {a b : ℚ} (h : ∀ e : ℚ, 0 ≤ e → e ≤ 1 → 0 ≤ e * a + e ^ 2 * b) : 0 ≤ a := by
  by_contra ha
  have ha := not_le.1 ha
  by_cases hb : b ≤ 0
  · have := h 1 (by norm_num) (le_refl _); linarith
  · have hb := not_le.1 hb
    by_cases hs : -a / (2 * b) ≤ 1
    · have h0 : 0 ≤ -a / (2 * b) := div_nonneg (by linarith) (by linarith)
      have := h _ h0 hs
      have hm : -a / (2 * b) * (2 * b) = -a := div_mul_cancel₀ _ (by positivity)
      generalize -a / (2 * b) = e at *
      have hep : 0 < e := by
        rcases eq_or_lt_of_le h0 with h' | h'
        · rw [← h'] at hm; linarith
        · exact h'
      nlinarith
    · have hs := not_le.1 hs
      rw [lt_div_iff₀ (by positivity)] at hs
      have := h 1 (by norm_num) (le_refl _)
      linarith

/-- A pair of points, each the nearest of its segment to the other, is a nearest pair. -/
theorem mutual_nearest (P Q A B : Pt ℚ) {s v : ℚ} (hs0 : 0 ≤ s) (hs1 : s ≤ 1) (hv0 : 0 ≤ v) (hv1 : v ≤ 1)
    (h1 : ∀ s', 0 ≤ s' → s' ≤ 1 → dist2At P Q A B s v ≤ dist2At P Q A B s' v)
    (h2 : ∀ v', 0 ≤ v' → v' ≤ 1 → dist2At P Q A B s v ≤ dist2At P Q A B s v') :
    IsSegDist P Q A B (dist2At P Q A B s v) := by
  refine ⟨⟨s, v, hs0, hs1, hv0, hv1, rfl⟩, ?_⟩
  intro s' v' a0 a1 b0 b1
  have g1 : 0 ≤ (s' - s) * (2 * s * vdot A A - 2 * vdot A (vsub Q P) - 2 * v * vdot A B) := by
    apply slope_nonneg (b := (s' - s) ^ 2 * vdot A A)
    intro e e0 e1
    have := h1 (s + e * (s' - s)) (by nlinarith) (by nlinarith)
    rw [dist2_quad, dist2_quad] at this
    linarith
  have g2 : 0 ≤ (v' - v) * (2 * v * vdot B B + 2 * vdot B (vsub Q P) - 2 * s * vdot A B) := by
    apply slope_nonneg (b := (v' - v) ^ 2 * vdot B B)
    intro e e0 e1
    have := h2 (v + e * (v' - v)) (by nlinarith) (by nlinarith)
    rw [dist2_quad, dist2_quad] at this
    linarith
  have q := quad_nonneg A B (s' - s) (v' - v)
  rw [dist2_quad, dist2_quad]
  linarith

/-- The point chosen on segment 1 is always the nearest one to the point chosen on segment 2. -/
theorem chosen_first (P Q A B : Pt ℚ) (hA : vdot A A ≠ 0) (hB : vdot B B ≠ 0) (s : ℚ) (h0 : 0 ≤ s) (h1 : s ≤ 1) :
    dist2At P Q A B (chosen P Q A B).1 (chosen P Q A B).2 ≤ dist2At P Q A B s (chosen P Q A B).2 := by
  have hA' : 0 < vdot A A := lt_of_le_of_ne (vdot_self_nonneg A) (Ne.symm hA)
  obtain ⟨o1, o2⟩ := line_opt P Q A B hB
  unfold chosen
  simp only
  split
  · have := clamp_opt P Q A B hA' 0 s h0 h1
    rw [zero_mul, zero_add] at this
    exact this
  · split
    · have := clamp_opt P Q A B hA' 1 s h0 h1
      rw [one_mul] at this
      exact this
    · simp only
      generalize (lineT P Q A B * vdot A B - vdot B (vsub Q P)) / vdot B B = u at *
      have := clamp_opt P Q A B hA' u s h0 h1
      have e : (u * vdot A B + vdot A (vsub Q P)) / vdot A A = lineT P Q A B := by
        rw [div_eq_iff hA, o2]; ring
      rw [e] at this
      exact this

/-- **C36, what `SegDist` returns**: the squared distance of the segments exactly if the point it chooses on segment 2 is
the nearest one of segment 2 to the point it chooses on segment 1 (the converse always holds). -/
theorem C36_characterisation (P Q A B : Pt ℚ) (hA : vdot A A ≠ 0) (hB : vdot B B ≠ 0) :
    (∃ m : ℚ, segDist P Q A B (vdot A A) (vdot B B) = (m : WithTop ℚ) ∧ IsSegDist P Q A B m) ↔
      ∀ v, 0 ≤ v → v ≤ 1 → dist2At P Q A B (chosen P Q A B).1 (chosen P Q A B).2 ≤ dist2At P Q A B (chosen P Q A B).1 v := by
  obtain ⟨r1, r2, r3, r4⟩ := chosen_range P Q A B
  rw [segDist_chosen P Q A B hA hB]
  constructor
  · rintro ⟨m, e, h⟩ v v0 v1
    have e := WithTop.coe_injective e
    rw [e]
    exact h.2 _ _ r1 r2 v0 v1
  · intro h
    exact ⟨_, rfl, mutual_nearest P Q A B r1 r2 r3 r4 (chosen_first P Q A B hA hB) h⟩

/-- Parallel segments: always right. -/
theorem C36_parallel (P Q A B : Pt ℚ) (hA : vdot A A ≠ 0) (hB : vdot B B ≠ 0) (h : vdot A A * vdot B B = vdot A B * vdot A B) :
    ∃ m : ℚ, segDist P Q A B (vdot A A) (vdot B B) = (m : WithTop ℚ) ∧ IsSegDist P Q A B m := by
  have : lineT P Q A B = 0 := by unfold lineT; rw [if_pos (by linarith)]
  exact C36_exact_partial P Q A B hA hB (by rw [this]) (by rw [this]; norm_num)

/-- Segments at a right angle: always right. -/
theorem C36_orthogonal (P Q A B : Pt ℚ) (hA : vdot A A ≠ 0) (hB : vdot B B ≠ 0) (h : vdot A B = 0) :
    ∃ m : ℚ, segDist P Q A B (vdot A A) (vdot B B) = (m : WithTop ℚ) ∧ IsSegDist P Q A B m := by
  rw [C36_characterisation P Q A B hA hB]
  have hB' : 0 < vdot B B := lt_of_le_of_ne (vdot_self_nonneg B) (Ne.symm hB)
  obtain ⟨o1, -⟩ := line_opt P Q A B hB
  intro v v0 v1
  rw [dist2_quad, dist2_quad, h]
  rw [h, mul_zero, zero_sub] at o1
  have hv : ((chosen P Q A B).2 - -vdot B (vsub Q P) / vdot B B) ^ 2 ≤ (v - -vdot B (vsub Q P) / vdot B B) ^ 2 := by
    unfold chosen
    simp only
    rw [h, mul_zero, zero_sub]
    generalize -vdot B (vsub Q P) / vdot B B = u at *
    split
    · next h => simp only; nlinarith
    · split
      · next h => simp only; nlinarith
      · simp only; nlinarith [sq_nonneg (v - u)]
  have e : vdot B (vsub Q P) = -((-vdot B (vsub Q P) / vdot B B) * vdot B B) := by
    rw [div_mul_cancel₀ _ hB]; ring
  generalize -vdot B (vsub Q P) / vdot B B = u at *
  rw [e]
  nlinarith [mul_nonneg (le_of_lt hB') (sub_nonneg.2 hv)]

/-- When the nearest points of the two lines are beyond segment 1 but inside segment 2, and the segments are not at a
right angle, the result is always too large. -/
theorem C36_always_wrong (P Q A B : Pt ℚ) (hA : vdot A A ≠ 0) (hB : vdot B B ≠ 0) (hAB : vdot A B ≠ 0)
    (ht : lineT P Q A B < 0 ∨ 1 < lineT P Q A B)
    (hu0 : 0 < lineT P Q A B * vdot A B - vdot B (vsub Q P)) (hu1 : lineT P Q A B * vdot A B - vdot B (vsub Q P) < vdot B B) :
    ∃ m : ℚ, segDist P Q A B (vdot A A) (vdot B B) = (m : WithTop ℚ) ∧
      ∃ s v, 0 ≤ s ∧ s ≤ 1 ∧ 0 ≤ v ∧ v ≤ 1 ∧ dist2At P Q A B s v < m := by
  have hB' : 0 < vdot B B := lt_of_le_of_ne (vdot_self_nonneg B) (Ne.symm hB)
  refine ⟨_, segDist_chosen P Q A B hA hB, ?_⟩
  by_contra hc
  have hmin : ∀ v, 0 ≤ v → v ≤ 1 → dist2At P Q A B (chosen P Q A B).1 (chosen P Q A B).2 ≤ dist2At P Q A B (chosen P Q A B).1 v := by
    intro v v0 v1
    by_contra h
    exact hc ⟨_, v, (chosen_range P Q A B).1, (chosen_range P Q A B).2.1, v0, v1, not_le.1 h⟩
  obtain ⟨o1, -⟩ := line_opt P Q A B hB
  have h1 : ¬ (lineT P Q A B * vdot A B - vdot B (vsub Q P)) / vdot B B ≤ 0 := not_le.2 (div_pos hu0 hB')
  have h2 : ¬ (lineT P Q A B * vdot A B - vdot B (vsub Q P)) / vdot B B ≥ 1 := not_le.2 ((div_lt_one hB').2 hu1)
  have hch : chosen P Q A B = (clamp (lineT P Q A B), (lineT P Q A B * vdot A B - vdot B (vsub Q P)) / vdot B B) := by
    unfold chosen; simp only; rw [if_neg h1, if_neg h2]
  rw [hch] at hmin
  simp only at hmin
  have h1 := not_le.1 h1
  have h2 := not_le.1 h2
  generalize (lineT P Q A B * vdot A B - vdot B (vsub Q P)) / vdot B B = u at *
  -- both directions along segment 2 are free, so the slope is 0
  have up : 0 ≤ (1 - u) * (2 * u * vdot B B + 2 * vdot B (vsub Q P) - 2 * clamp (lineT P Q A B) * vdot A B) := by
    apply slope_nonneg (b := (1 - u) ^ 2 * vdot B B)
    intro e e0 e1
    have := hmin (u + e * (1 - u)) (by nlinarith) (by nlinarith)
    rw [dist2_quad, dist2_quad] at this
    linarith
  have down : 0 ≤ (0 - u) * (2 * u * vdot B B + 2 * vdot B (vsub Q P) - 2 * clamp (lineT P Q A B) * vdot A B) := by
    apply slope_nonneg (b := (0 - u) ^ 2 * vdot B B)
    intro e e0 e1
    have := hmin (u + e * (0 - u)) (by nlinarith) (by nlinarith)
    rw [dist2_quad, dist2_quad] at this
    linarith
  have a := nonneg_of_mul_nonneg_right up (by linarith : 0 < 1 - u)
  have b : 2 * u * vdot B B + 2 * vdot B (vsub Q P) - 2 * clamp (lineT P Q A B) * vdot A B ≤ 0 := by
    by_contra h
    have := mul_pos h1 (not_le.1 h)
    linarith
  have z : (lineT P Q A B - clamp (lineT P Q A B)) * vdot A B = 0 := by linarith
  rcases mul_eq_zero.1 z with z | z
  · have := clamp_range (lineT P Q A B)
    rcases ht with ht | ht <;> linarith
  · exact hAB z

/-- Met by a pair of segments in a plane: the result is 1, the distance less than that. -/
example : let P := pt3 0 0 0; let A := pt3 1 0 0; let Q := pt3 (-3) (-1) 0; let B : Pt ℚ := pt3 2 2 0
    vdot A A ≠ 0 ∧ vdot B B ≠ 0 ∧ vdot A B ≠ 0 ∧ lineT P Q A B < 0 ∧ 0 < lineT P Q A B * vdot A B - vdot B (vsub Q P) ∧
    lineT P Q A B * vdot A B - vdot B (vsub Q P) < vdot B B ∧ segDist P Q A B (vdot A A) (vdot B B) = ((4 : ℚ) : WithTop ℚ) ∧
    dist2At P Q A B 0 1 = 2 := by decide +kernel
/-- Segments at a right angle and parallel ones, beyond each other's ends. -/
example : let P := pt3 0 0 0; let A := pt3 1 0 0; let Q := pt3 (-3) (-1) 0; let B : Pt ℚ := pt3 0 2 0
    vdot A A ≠ 0 ∧ vdot B B ≠ 0 ∧ vdot A B = 0 ∧ lineT P Q A B < 0 ∧ segDist P Q A B (vdot A A) (vdot B B) = ((9 : ℚ) : WithTop ℚ) := by decide +kernel
example : let P := pt3 0 0 0; let A := pt3 1 0 0; let Q := pt3 3 1 0; let B : Pt ℚ := pt3 (-1) 0 0
    vdot A A * vdot B B = vdot A B * vdot A B ∧ segDist P Q A B (vdot A A) (vdot B B) = ((2 : ℚ) : WithTop ℚ) := by decide +kernel

end TDP.Kernels
