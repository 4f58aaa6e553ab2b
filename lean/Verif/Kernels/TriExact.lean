import Verif.Kernels.Coplanar
/-! C38, the whole picture: for which pairs of triangles that are not degenerate `TriInt` answers yes. -/
namespace TDP.Kernels
open TDP.Boxes

/-! ## The planar test -/

section
variable {p10 p11 p20 p21 r0 r1 t0 t1 : ℚ}

theorem legal_zero {q : ℚ} : Legal 0 q ↔ q ≠ 0 := by
  unfold Legal
  rw [zero_mul]
  exact ⟨fun h => h.2.2, fun h => ⟨le_refl _, mul_self_nonneg q, h⟩⟩

/-- What the planar test answers for a segment that is not a point: whether the segment meets the triangle, except
when its line passes through the corner `0` into the inside; then whether it meets that corner. -/
theorem test2D_exact (ht : ¬ (t0 = 0 ∧ t1 = 0)) (hp : p10 * p21 - p20 * p11 ≠ 0) :
    test2D p10 p11 p20 p21 r0 r1 t0 t1 = true ↔
      (∃ g x y, 0 ≤ g ∧ g ≤ 1 ∧ Simplex x y ∧ Pt2 p10 p11 p20 p21 r0 r1 t0 t1 g x y) ∧
      (r0 * t1 - t0 * r1 = 0 → p10 * t1 - t0 * p11 ≠ 0 → p20 * t1 - t0 * p21 ≠ 0 →
        ∃ g, 0 ≤ g ∧ g ≤ 1 ∧ r0 + g * t0 = 0 ∧ r1 + g * t1 = 0) := by
  by_cases hw : r0 * t1 - t0 * r1 = 0
  · by_cases h1 : p10 * t1 - t0 * p11 = 0
    · by_cases h2 : p20 * t1 - t0 * p21 = 0
      · exfalso
        have k0 : t0 * (p10 * p21 - p20 * p11) = 0 := by linear_combination p20 * h1 - p10 * h2
        have k1 : t1 * (p10 * p21 - p20 * p11) = 0 := by linear_combination p21 * h1 - p11 * h2
        rcases mul_eq_zero.1 k0 with k0 | k0
        · rcases mul_eq_zero.1 k1 with k1 | k1
          · exact ht ⟨k0, k1⟩
          · exact hp k1
        · exact hp k0
      · constructor
        · intro h; exact ⟨test2D_sound h, fun _ h' => absurd h1 h'⟩
        · rintro ⟨⟨g, x, y, g0, g1, hs, h⟩, -⟩
          have hl1 : ¬ Legal (r0 * t1 - t0 * r1) (p10 * t1 - t0 * p11) := by rw [hw, legal_zero]; exact not_not.2 h1
          have hl2 : Legal (r0 * t1 - t0 * r1) (p20 * t1 - t0 * p21) := by rw [hw, legal_zero]; exact h2
          rw [test2D_iff]
          right; right
          refine ⟨hl1, hl2, ?_⟩
          have hh : x * (p10 * t1 - t0 * p11) + y * (p20 * t1 - t0 * p21) = r0 * t1 - t0 * r1 := by
            linear_combination (-t1) * h.1 + t0 * h.2
          rw [hw, h1, mul_zero, zero_add] at hh
          have hy : y = 0 := (mul_eq_zero.1 hh).resolve_right h2
          have hp' := pt2_comb (l := x) (edge2_pt (p10 := p10) (p11 := p11) (r0 := r0) (r1 := r1) h2)
            (edge3_pt (p10 := p10) (p11 := p11) (p20 := p20) (p21 := p21) (r0 := r0) (r1 := r1) (legal_third' hl1 hl2).1)
          have e1 : (1 - x) * 0 + x * (1 - ((r0 * t1 - t0 * r1) - (p10 * t1 - t0 * p11)) / ((p20 * t1 - t0 * p21) - (p10 * t1 - t0 * p11))) = x := by
            rw [hw, h1]; simp
          have e2 : (1 - x) * ((r0 * t1 - t0 * r1) / (p20 * t1 - t0 * p21)) +
              x * (((r0 * t1 - t0 * r1) - (p10 * t1 - t0 * p11)) / ((p20 * t1 - t0 * p21) - (p10 * t1 - t0 * p11))) = y := by
            rw [hw, h1, hy]; simp
          rw [e1, e2] at hp'
          have e := pt2_inj ht h hp'
          exact cond_of_between hs.1 (by have := hs.2.2; have := hs.2.1; linarith) (by rw [← e]; exact g0) (by rw [← e]; exact g1)
    · by_cases h2 : p20 * t1 - t0 * p21 = 0
      · constructor
        · intro h; exact ⟨test2D_sound h, fun _ _ h' => absurd h2 h'⟩
        · rintro ⟨⟨g, x, y, g0, g1, hs, h⟩, -⟩
          have hl1 : Legal (r0 * t1 - t0 * r1) (p10 * t1 - t0 * p11) := by rw [hw, legal_zero]; exact h1
          have hl2 : ¬ Legal (r0 * t1 - t0 * r1) (p20 * t1 - t0 * p21) := by rw [hw, legal_zero]; exact not_not.2 h2
          rw [test2D_iff]
          right; left
          refine ⟨hl1, hl2, ?_⟩
          have hh : x * (p10 * t1 - t0 * p11) + y * (p20 * t1 - t0 * p21) = r0 * t1 - t0 * r1 := by
            linear_combination (-t1) * h.1 + t0 * h.2
          rw [hw, h2, mul_zero, add_zero] at hh
          have hx : x = 0 := (mul_eq_zero.1 hh).resolve_right h1
          have hp' := pt2_comb (l := y) (edge1_pt (p20 := p20) (p21 := p21) (r0 := r0) (r1 := r1) h1)
            (edge3_pt (p10 := p10) (p11 := p11) (p20 := p20) (p21 := p21) (r0 := r0) (r1 := r1) (legal_third hl1 hl2).1)
          have q : (0 - (p10 * t1 - t0 * p11)) / (0 - (p10 * t1 - t0 * p11)) = 1 :=
            div_self (by rw [zero_sub]; exact neg_ne_zero.2 h1)
          have e1 : (1 - y) * ((r0 * t1 - t0 * r1) / (p10 * t1 - t0 * p11)) +
              y * (1 - ((r0 * t1 - t0 * r1) - (p10 * t1 - t0 * p11)) / ((p20 * t1 - t0 * p21) - (p10 * t1 - t0 * p11))) = x := by
            rw [hw, h2, hx, q]; simp
          have e2 : (1 - y) * 0 +
              y * (((r0 * t1 - t0 * r1) - (p10 * t1 - t0 * p11)) / ((p20 * t1 - t0 * p21) - (p10 * t1 - t0 * p11))) = y := by
            rw [hw, h2, q]; simp
          rw [e1, e2] at hp'
          have e := pt2_inj ht h hp'
          exact cond_of_between hs.2.1 (by have := hs.2.2; have := hs.1; linarith) (by rw [← e]; exact g0) (by rw [← e]; exact g1)
      · have hl1 : Legal (r0 * t1 - t0 * r1) (p10 * t1 - t0 * p11) := by rw [hw, legal_zero]; exact h1
        have hl2 : Legal (r0 * t1 - t0 * r1) (p20 * t1 - t0 * p21) := by rw [hw, legal_zero]; exact h2
        have E1 := edge1_pt (p20 := p20) (p21 := p21) (r0 := r0) (r1 := r1) h1
        have E2 := edge2_pt (p10 := p10) (p11 := p11) (r0 := r0) (r1 := r1) h2
        rw [hw, zero_div] at E1 E2
        have eg := pt2_inj ht E1 E2
        have hc : test2D p10 p11 p20 p21 r0 r1 t0 t1 = true ↔ 
            (0 ≤ -(p10 * r1 - r0 * p11) / (p10 * t1 - t0 * p11) ∧ -(p10 * r1 - r0 * p11) / (p10 * t1 - t0 * p11) ≤ 1) := by
          rw [test2D_iff]
          constructor
          · rintro (⟨-, -, c⟩ | ⟨-, b, -⟩ | ⟨a, -, -⟩)
            · rw [← eg] at c
              rcases c with c | c | c
              · exact c
              · exact c
              · exact absurd c (not_lt.2 (mul_self_nonneg _))
            · exact absurd hl2 b
            · exact absurd hl1 a
          · intro c; exact Or.inl ⟨hl1, hl2, Or.inl c⟩
        constructor
        · intro h
          have c := hc.1 h
          refine ⟨test2D_sound h, fun _ _ _ => ⟨_, c.1, c.2, ?_, ?_⟩⟩
          · rw [E1.1]; ring
          · rw [E1.2]; ring
        · rintro ⟨-, h⟩
          obtain ⟨g, g0, g1, a, b⟩ := h hw h1 h2
          rw [hc]
          have : Pt2 p10 p11 p20 p21 r0 r1 t0 t1 g 0 0 := ⟨by rw [a]; ring, by rw [b]; ring⟩
          rw [← pt2_inj ht this E1]
          exact ⟨g0, g1⟩
  · constructor
    · intro h; exact ⟨test2D_sound h, fun h' => absurd h' hw⟩
    · rintro ⟨⟨g, x, y, g0, g1, hs, h⟩, -⟩
      exact test2D_complete hw g0 g1 hs h

end

/-! ## The chord -/

section
variable {P1 P2 Q1 Q2 : Pt ℚ}

/-- A vertical plane: the planar test never says yes. -/
theorem chord_vertical {SF t0 t1 r40 r41 b1 b2 : ℚ} (hd : dp2 P1 P2 = 0)
    (ht0 : t0 = SF * (b1 * Q1 0 + b2 * Q2 0)) (ht1 : t1 = SF * (b1 * Q1 1 + b2 * Q2 1))
    (hb : b1 * nd P1 P2 Q1 + b2 * nd P1 P2 Q2 = 0) (hq : nd P1 P2 Q1 ≠ 0 ∨ nd P1 P2 Q2 ≠ 0) :
    test2D (SF * P1 0) (SF * P1 1) (SF * P2 0) (SF * P2 1) r40 r41 t0 t1 = false := by
  have ht : t0 * dp0 P1 P2 - t1 * dp1 P1 P2 = 0 := by
    rw [ht0, ht1]
    unfold nd at hb
    rw [hd] at hb
    linear_combination SF * hb
  have hP1 : P1 0 * dp0 P1 P2 - P1 1 * dp1 P1 P2 = 0 := by
    have : P1 0 * dp0 P1 P2 - P1 1 * dp1 P1 P2 + P1 2 * dp2 P1 P2 = 0 := by unfold dp0 dp1 dp2; ring
    rw [hd] at this; linarith
  have hP2 : P2 0 * dp0 P1 P2 - P2 1 * dp1 P1 P2 = 0 := by
    have : P2 0 * dp0 P1 P2 - P2 1 * dp1 P1 P2 + P2 2 * dp2 P1 P2 = 0 := by unfold dp0 dp1 dp2; ring
    rw [hd] at this; linarith
  have hn : dp0 P1 P2 ≠ 0 ∨ dp1 P1 P2 ≠ 0 := by
    by_contra hh
    rw [not_or, not_not, not_not] at hh
    unfold nd at hq
    rw [hd, hh.1, hh.2] at hq
    simp at hq
  have par : ∀ v0 v1 : ℚ, v0 * dp0 P1 P2 - v1 * dp1 P1 P2 = 0 → v0 * t1 - t0 * v1 = 0 := by
    intro v0 v1 hv
    rcases hn with hn | hn
    · apply mul_left_cancel₀ hn; linear_combination t1 * hv - v1 * ht
    · apply mul_left_cancel₀ hn; linear_combination t0 * hv - v0 * ht
  exact test2D_flat (by linear_combination SF * par _ _ hP1) (by linear_combination SF * par _ _ hP2)

/-- The direction `b1 Q1 + b2 Q2` lies in both planes, so its planar cross product with a vector `v` of plane 1 is,
up to a factor that is not 0, the height of `v` over plane 2. -/
theorem chord_det {b1 b2 : ℚ} {v : Pt ℚ} (hv : nd P1 P2 v = 0) (hb : b1 * nd P1 P2 Q1 + b2 * nd P1 P2 Q2 = 0)
    (hd : dp2 P1 P2 ≠ 0) (hq : nd P1 P2 Q1 ≠ 0 ∨ nd P1 P2 Q2 ≠ 0) (hne : b1 ≠ 0 ∨ b2 ≠ 0) :
    v 0 * (b1 * Q1 1 + b2 * Q2 1) - (b1 * Q1 0 + b2 * Q2 0) * v 1 = 0 ↔ vdot (vcross Q1 Q2) v = 0 := by
  have k2 : nd P1 P2 Q2 * (v 0 * (b1 * Q1 1 + b2 * Q2 1) - (b1 * Q1 0 + b2 * Q2 0) * v 1) =
      b1 * (dp2 P1 P2 * vdot (vcross Q1 Q2) v) := by
    unfold vdot vcross; simp only [pt3_0, pt3_1, pt3_2]
    unfold nd at *
    linear_combination (v 0 * Q2 1 - v 1 * Q2 0) * hb + b1 * (Q1 1 * Q2 0 - Q1 0 * Q2 1) * hv
  have k1 : nd P1 P2 Q1 * (v 0 * (b1 * Q1 1 + b2 * Q2 1) - (b1 * Q1 0 + b2 * Q2 0) * v 1) =
      -(b2 * (dp2 P1 P2 * vdot (vcross Q1 Q2) v)) := by
    unfold vdot vcross; simp only [pt3_0, pt3_1, pt3_2]
    unfold nd at *
    linear_combination (v 0 * Q1 1 - v 1 * Q1 0) * hb - b2 * (Q1 1 * Q2 0 - Q1 0 * Q2 1) * hv
  constructor
  · intro h
    rw [h, mul_zero] at k1 k2
    have : dp2 P1 P2 * vdot (vcross Q1 Q2) v = 0 := by
      rcases hne with hne | hne
      · exact (mul_eq_zero.1 k2.symm).resolve_left hne
      · exact (mul_eq_zero.1 (neg_eq_zero.1 k1.symm)).resolve_left hne
    exact (mul_eq_zero.1 this).resolve_left hd
  · intro h
    rw [h, mul_zero, mul_zero] at k1 k2
    rw [neg_zero] at k1
    rcases hq with hq | hq
    · exact (mul_eq_zero.1 k1).resolve_left hq
    · exact (mul_eq_zero.1 k2).resolve_left hq

/-- The chord is not vertical. -/
theorem chord_dir {b1 b2 : ℚ} (hb : b1 * nd P1 P2 Q1 + b2 * nd P1 P2 Q2 = 0) (hd : dp2 P1 P2 ≠ 0)
    (hQ : vcross Q1 Q2 ≠ 0) (hne : b1 ≠ 0 ∨ b2 ≠ 0) :
    ¬ (b1 * Q1 0 + b2 * Q2 0 = 0 ∧ b1 * Q1 1 + b2 * Q2 1 = 0) := by
  rintro ⟨h0, h1⟩
  have h2 : b1 * Q1 2 + b2 * Q2 2 = 0 := by
    apply mul_left_cancel₀ hd
    unfold nd at hb
    linear_combination hb - dp0 P1 P2 * h0 + dp1 P1 P2 * h1
  apply hQ
  have key : ∀ i j : Fin 3, b1 * Q1 i + b2 * Q2 i = 0 → b1 * Q1 j + b2 * Q2 j = 0 → Q1 i * Q2 j - Q1 j * Q2 i = 0 := by
    intro i j hi hj
    rcases hne with hne | hne
    · apply mul_left_cancel₀ hne; linear_combination Q2 j * hi - Q2 i * hj
    · apply mul_left_cancel₀ hne; linear_combination Q1 i * hj - Q1 j * hi
  funext i
  revert i
  exact fin3_all (key 1 2 h1 h2) (key 2 0 h2 h0) (key 0 1 h0 h1)

/-- Points of plane 1 that agree in `x` and `y` are the same. -/
theorem plane_lift {u v : Pt ℚ} (hd : dp2 P1 P2 ≠ 0) (h : nd P1 P2 u = nd P1 P2 v) (h0 : u 0 = v 0) (h1 : u 1 = v 1) :
    ∀ i, u i = v i := by
  refine fin3_all h0 h1 ?_
  apply mul_right_cancel₀ hd
  unfold nd at h
  rw [h0, h1] at h
  linarith

end

/-! ## The pairs that are missed -/

/-- Specification: the first corner of triangle 1 lies in the plane of triangle 2, outside triangle 2, and is the only
corner of triangle 1 in that plane. -/
def CornerOutside (C P1 P2 D Q1 Q2 : Pt ℚ) : Prop :=
  offPlane D Q1 Q2 C = 0 ∧ offPlane D Q1 Q2 (vadd C P1) ≠ 0 ∧ offPlane D Q1 Q2 (vadd C P2) ≠ 0 ∧ ¬ InTri D Q1 Q2 C

/-- Specification: triangle 2 has its first corner, and no other, in the plane of triangle 1. -/
def FirstOnly (C P1 P2 D Q1 Q2 : Pt ℚ) : Prop :=
  offPlane C P1 P2 D = 0 ∧ offPlane C P1 P2 (vadd D Q1) ≠ 0 ∧ offPlane C P1 P2 (vadd D Q2) ≠ 0

/-- Specification: triangle 2 touches the plane of triangle 1 with its second or its third corner alone, the two
others lying strictly on one side. -/
def OtherTouches (C P1 P2 D Q1 Q2 : Pt ℚ) : Prop :=
  (offPlane C P1 P2 (vadd D Q1) = 0 ∧ 0 < offPlane C P1 P2 D * offPlane C P1 P2 (vadd D Q2)) ∨
  (offPlane C P1 P2 (vadd D Q2) = 0 ∧ 0 < offPlane C P1 P2 D * offPlane C P1 P2 (vadd D Q1))

/-- Specification: the two triangles lie in one plane. -/
def OnePlane (C P1 P2 D Q1 Q2 : Pt ℚ) : Prop :=
  offPlane C P1 P2 D = 0 ∧ offPlane C P1 P2 (vadd D Q1) = 0 ∧ offPlane C P1 P2 (vadd D Q2) = 0

/-- Specification: the pairs the test calls disjoint whether they are or not. -/
def Missed (C P1 P2 D Q1 Q2 : Pt ℚ) : Prop :=
  ¬ OnePlane C P1 P2 D Q1 Q2 ∧
    (vcross P1 P2 2 = 0 ∨ FirstOnly C P1 P2 D Q1 Q2 ∨ OtherTouches C P1 P2 D Q1 Q2 ∨ CornerOutside C P1 P2 D Q1 Q2)

/-- The scaled planar test for a chord that is not a point. -/
theorem chord_exact {C P1 P2 D Q1 Q2 : Pt ℚ} {SF a1 a2 b1 b2 r40 r41 t0 t1 : ℚ} (hSF : SF ≠ 0)
    (hr0 : r40 = SF * (D 0 - C 0 + a1 * Q1 0 + a2 * Q2 0)) (hr1 : r41 = SF * (D 1 - C 1 + a1 * Q1 1 + a2 * Q2 1))
    (ht0 : t0 = SF * ((b1 - a1) * Q1 0 + (b2 - a2) * Q2 0)) (ht1 : t1 = SF * ((b1 - a1) * Q1 1 + (b2 - a2) * Q2 1))
    (ha : nd P1 P2 (vsub D C) + a1 * nd P1 P2 Q1 + a2 * nd P1 P2 Q2 = 0)
    (hb : nd P1 P2 (vsub D C) + b1 * nd P1 P2 Q1 + b2 * nd P1 P2 Q2 = 0)
    (hq : nd P1 P2 Q1 ≠ 0 ∨ nd P1 P2 Q2 ≠ 0)
    (hd : dp2 P1 P2 ≠ 0) (hQ : vcross Q1 Q2 ≠ 0) (hne : b1 - a1 ≠ 0 ∨ b2 - a2 ≠ 0)
    (sa : Simplex a1 a2) (sb : Simplex b1 b2)
    (hch : ∀ x y, Simplex x y → nd P1 P2 (vsub D C) + x * nd P1 P2 Q1 + y * nd P1 P2 Q2 = 0 →
      ∃ l, 0 ≤ l ∧ l ≤ 1 ∧ x = (1 - l) * a1 + l * b1 ∧ y = (1 - l) * a2 + l * b2) :
    test2D (SF * P1 0) (SF * P1 1) (SF * P2 0) (SF * P2 1) r40 r41 t0 t1 = true ↔
      TriMeet C P1 P2 D Q1 Q2 ∧ ¬ CornerOutside C P1 P2 D Q1 Q2 := by
  have hbt : (b1 - a1) * nd P1 P2 Q1 + (b2 - a2) * nd P1 P2 Q2 = 0 := by linear_combination hb - ha
  have ht : ¬ (t0 = 0 ∧ t1 = 0) := by
    rw [ht0, ht1]
    rintro ⟨h0, h1⟩
    exact chord_dir hbt hd hQ hne ⟨(mul_eq_zero.1 h0).resolve_left hSF, (mul_eq_zero.1 h1).resolve_left hSF⟩
  have hp : SF * P1 0 * (SF * P2 1) - SF * P2 0 * (SF * P1 1) ≠ 0 := by
    have : SF * P1 0 * (SF * P2 1) - SF * P2 0 * (SF * P1 1) = SF * SF * dp2 P1 P2 := by unfold dp2; ring
    rw [this]; exact mul_ne_zero (mul_self_ne_zero.2 hSF) hd
  rw [test2D_exact ht hp]
  -- the heights over plane 2
  have plP1 : nd P1 P2 P1 = 0 := by unfold nd dp0 dp1 dp2; ring
  have plP2 : nd P1 P2 P2 = 0 := by unfold nd dp0 dp1 dp2; ring
  have S2 : SF * SF ≠ 0 := mul_self_ne_zero.2 hSF
  have D1 : SF * P1 0 * t1 - t0 * (SF * P1 1) = 0 ↔ vdot (vcross Q1 Q2) P1 = 0 := by
    rw [← chord_det plP1 hbt hd hq hne, ht0, ht1]
    constructor
    · intro h; apply mul_left_cancel₀ S2; linear_combination h
    · intro h; linear_combination SF * SF * h
  have D2 : SF * P2 0 * t1 - t0 * (SF * P2 1) = 0 ↔ vdot (vcross Q1 Q2) P2 = 0 := by
    rw [← chord_det plP2 hbt hd hq hne, ht0, ht1]
    constructor
    · intro h; apply mul_left_cancel₀ S2; linear_combination h
    · intro h; linear_combination SF * SF * h
  have plr : nd P1 P2 (fun i => D i - C i + a1 * Q1 i + a2 * Q2 i) = 0 := by
    unfold nd vsub at *; simp only [pt3_0, pt3_1, pt3_2] at ha; linear_combination ha
  have DW : r40 * t1 - t0 * r41 = 0 ↔ offPlane D Q1 Q2 C = 0 := by
    have e : offPlane D Q1 Q2 C = -vdot (vcross Q1 Q2) (fun i => D i - C i + a1 * Q1 i + a2 * Q2 i) := by
      unfold offPlane vdot vcross vsub; simp only [pt3_0, pt3_1, pt3_2]; ring
    rw [e, neg_eq_zero, ← chord_det plr hbt hd hq hne, hr0, hr1, ht0, ht1]
    constructor
    · intro h; apply mul_left_cancel₀ S2; linear_combination h
    · intro h; linear_combination SF * SF * h
  have off1 : offPlane D Q1 Q2 C = 0 → (offPlane D Q1 Q2 (vadd C P1) ≠ 0 ↔ SF * P1 0 * t1 - t0 * (SF * P1 1) ≠ 0) := by
    intro h
    rw [Ne, Ne, D1]
    have : offPlane D Q1 Q2 (vadd C P1) = offPlane D Q1 Q2 C + vdot (vcross Q1 Q2) P1 := by
      unfold offPlane vdot vsub vadd; simp only [pt3_0, pt3_1, pt3_2]; ring
    rw [this, h, zero_add]
  have off2 : offPlane D Q1 Q2 C = 0 → (offPlane D Q1 Q2 (vadd C P2) ≠ 0 ↔ SF * P2 0 * t1 - t0 * (SF * P2 1) ≠ 0) := by
    intro h
    rw [Ne, Ne, D2]
    have : offPlane D Q1 Q2 (vadd C P2) = offPlane D Q1 Q2 C + vdot (vcross Q1 Q2) P2 := by
      unfold offPlane vdot vsub vadd; simp only [pt3_0, pt3_1, pt3_2]; ring
    rw [this, h, zero_add]
  -- points of the chord
  have lift : ∀ g x y : ℚ, r40 + g * t0 = x * (SF * P1 0) + y * (SF * P2 0) → r41 + g * t1 = x * (SF * P1 1) + y * (SF * P2 1) →
      ∀ i, C i + x * P1 i + y * P2 i = D i + ((1 - g) * a1 + g * b1) * Q1 i + ((1 - g) * a2 + g * b2) * Q2 i := by
    intro g x y h0 h1
    rw [hr0, ht0] at h0
    rw [hr1, ht1] at h1
    have := plane_lift (P1 := P1) (P2 := P2) (u := fun i => x * P1 i + y * P2 i)
      (v := fun i => D i - C i + ((1 - g) * a1 + g * b1) * Q1 i + ((1 - g) * a2 + g * b2) * Q2 i) hd ?_ ?_ ?_
    · intro i; have := this i; linarith
    · unfold nd vsub at *; simp only [pt3_0, pt3_1, pt3_2] at *
      linear_combination x * plP1 + y * plP2 - (1 - g) * ha - g * hb
    · apply mul_left_cancel₀ hSF; linear_combination -h0
    · apply mul_left_cancel₀ hSF; linear_combination -h1
  have simp' : ∀ g : ℚ, 0 ≤ g → g ≤ 1 → Simplex ((1 - g) * a1 + g * b1) ((1 - g) * a2 + g * b2) := by
    intro g g0 g1
    obtain ⟨sa1, sa2, sa3⟩ := sa
    obtain ⟨sb1, sb2, sb3⟩ := sb
    have h1g : 0 ≤ 1 - g := by linarith
    refine ⟨by positivity, by positivity, ?_⟩
    have q1 := mul_le_mul_of_nonneg_left sa3 h1g
    have q2 := mul_le_mul_of_nonneg_left sb3 g0
    linarith
  have drop : ∀ l a b : ℚ, (∀ i, C i + a * P1 i + b * P2 i = D i + ((1 - l) * a1 + l * b1) * Q1 i + ((1 - l) * a2 + l * b2) * Q2 i) →
      r40 + l * t0 = a * (SF * P1 0) + b * (SF * P2 0) ∧ r41 + l * t1 = a * (SF * P1 1) + b * (SF * P2 1) := by
    intro l a b h
    rw [hr0, hr1, ht0, ht1]
    exact ⟨by linear_combination (-SF) * h 0, by linear_combination (-SF) * h 1⟩
  have onpl : ∀ x y a b : ℚ, (∀ i, C i + a * P1 i + b * P2 i = D i + x * Q1 i + y * Q2 i) →
      nd P1 P2 (vsub D C) + x * nd P1 P2 Q1 + y * nd P1 P2 Q2 = 0 := by
    intro x y a b h
    have h0 := h 0
    have h1 := h 1
    have h2 := h 2
    unfold nd vsub at *
    simp only [pt3_0, pt3_1, pt3_2] at *
    linear_combination (-dp0 P1 P2) * h0 + dp1 P1 P2 * h1 - dp2 P1 P2 * h2 + a * plP1 + b * plP2
  have meet : (∃ g x y, 0 ≤ g ∧ g ≤ 1 ∧ Simplex x y ∧ Pt2 (SF * P1 0) (SF * P1 1) (SF * P2 0) (SF * P2 1) r40 r41 t0 t1 g x y) ↔
      TriMeet C P1 P2 D Q1 Q2 := by
    constructor
    · rintro ⟨g, x, y, g0, g1, hs, h⟩
      have s := simp' g g0 g1
      exact ⟨fun i => C i + x * P1 i + y * P2 i, ⟨x, y, hs.1, hs.2.1, hs.2.2, fun _ => rfl⟩, _, _, s.1, s.2.1, s.2.2, lift g x y h.1 h.2⟩
    · rintro ⟨p, ⟨a, b, a0, b0, ab, e⟩, ⟨x, y, x0, y0, xy, e'⟩⟩
      have ee : ∀ i, C i + a * P1 i + b * P2 i = D i + x * Q1 i + y * Q2 i := fun i => (e i).symm.trans (e' i)
      obtain ⟨l, l0, l1, ex, ey⟩ := hch x y ⟨x0, y0, xy⟩ (onpl x y a b ee)
      rw [ex, ey] at ee
      exact ⟨l, a, b, l0, l1, ⟨a0, b0, ab⟩, drop l a b ee⟩
  have corner : (∃ g, 0 ≤ g ∧ g ≤ 1 ∧ r40 + g * t0 = 0 ∧ r41 + g * t1 = 0) ↔ InTri D Q1 Q2 C := by
    constructor
    · rintro ⟨g, g0, g1, h0, h1⟩
      have s := simp' g g0 g1
      have := lift g 0 0 (by rw [h0]; ring) (by rw [h1]; ring)
      exact ⟨_, _, s.1, s.2.1, s.2.2, fun i => by have := this i; linarith⟩
    · rintro ⟨x, y, x0, y0, xy, e'⟩
      have ee : ∀ i, C i + 0 * P1 i + 0 * P2 i = D i + x * Q1 i + y * Q2 i := fun i => by rw [← e' i]; ring
      obtain ⟨l, l0, l1, ex, ey⟩ := hch x y ⟨x0, y0, xy⟩ (onpl x y 0 0 ee)
      rw [ex, ey] at ee
      obtain ⟨u, v⟩ := drop l 0 0 ee
      exact ⟨l, l0, l1, by rw [u]; ring, by rw [v]; ring⟩
  rw [meet, corner, DW]
  unfold CornerOutside
  constructor
  · rintro ⟨h, k⟩
    refine ⟨h, ?_⟩
    rintro ⟨c0, c1, c2, c3⟩
    exact c3 (k c0 ((off1 c0).1 c1) ((off2 c0).1 c2))
  · rintro ⟨h, k⟩
    refine ⟨h, fun c0 c1 c2 => ?_⟩
    by_contra c3
    exact k ⟨c0, (off1 c0).2 c1, (off2 c0).2 c2, c3⟩


/-! ## `TriInt` -/

theorem legal_iff {d q : ℚ} (hd : d ≠ 0) : Legal d q ↔ d * d ≤ d * q := by
  have h2 : 0 < d * d := mul_self_pos.2 hd
  constructor
  · rintro ⟨a, b, c⟩
    have hq : 0 < q * q := mul_self_pos.2 c
    have k := mul_nonneg a (sub_nonneg.2 b)
    have k' : 0 ≤ q * q * (d * q - d * d) := by nlinarith
    have := nonneg_of_mul_nonneg_right k' hq
    linarith
  · intro h
    have hp : 0 < d * q := by linarith
    refine ⟨le_of_lt hp, ?_, ?_⟩
    · have k : 0 ≤ d * d * (q * q - d * q) := by
        have := mul_nonneg (le_of_lt hp) (sub_nonneg.2 h)
        nlinarith
      have := nonneg_of_mul_nonneg_right k h2
      linarith
    · rintro rfl; simp at hp

/-- **C38, what the test answers**: for triangles neither of which is degenerate, it says yes exactly if they have a
point in common and are not one of the missed pairs. -/
theorem C38_characterisation {C P1 P2 D Q1 Q2 : Pt ℚ} (hP : vcross P1 P2 ≠ 0) (hQ : vcross Q1 Q2 ≠ 0) :
    triInt C P1 P2 D Q1 Q2 = true ↔ TriMeet C P1 P2 D Q1 Q2 ∧ ¬ Missed C P1 P2 D Q1 Q2 := by
  by_cases hop : OnePlane C P1 P2 D Q1 Q2
  · rw [C38_coplanar hP hQ hop.1 hop.2.1 hop.2.2]
    exact ⟨fun h => ⟨h, fun m => m.1 hop⟩, fun h => h.1⟩
  have hm : Missed C P1 P2 D Q1 Q2 ↔ (vcross P1 P2 2 = 0 ∨ FirstOnly C P1 P2 D Q1 Q2 ∨ OtherTouches C P1 P2 D Q1 Q2 ∨
      CornerOutside C P1 P2 D Q1 Q2) := ⟨fun h => h.2, fun h => ⟨hop, h⟩⟩
  rw [hm]
  clear hm
  have hr : offPlane C P1 P2 D = nd P1 P2 (vsub D C) := (nd_eq _ _ _).symm
  have hr1 : offPlane C P1 P2 (vadd D Q1) = nd P1 P2 (vsub D C) + nd P1 P2 Q1 := by
    rw [nd_eq, nd_eq]; unfold offPlane vdot vsub vadd; simp only [pt3_0, pt3_1, pt3_2]; ring
  have hr2 : offPlane C P1 P2 (vadd D Q2) = nd P1 P2 (vsub D C) + nd P1 P2 Q2 := by
    rw [nd_eq, nd_eq]; unfold offPlane vdot vsub vadd; simp only [pt3_0, pt3_1, pt3_2]; ring
  have hpl : TriMeet C P1 P2 D Q1 Q2 → ∃ x y, Simplex x y ∧ nd P1 P2 (vsub D C) + x * nd P1 P2 Q1 + y * nd P1 P2 Q2 = 0 := by
    rintro ⟨p, ⟨a, b, a0, b0, ab, e⟩, ⟨x, y, x0, y0, xy, e'⟩⟩
    refine ⟨x, y, ⟨x0, y0, xy⟩, ?_⟩
    have e0 := (e 0).symm.trans (e' 0)
    have e1 := (e 1).symm.trans (e' 1)
    have e2 := (e 2).symm.trans (e' 2)
    unfold nd vsub dp0 dp1 dp2
    simp only [pt3_0, pt3_1, pt3_2]
    linear_combination (-(P1 1 * P2 2 - P2 1 * P1 2)) * e0 + (P1 0 * P2 2 - P2 0 * P1 2) * e1 - (P1 0 * P2 1 - P2 0 * P1 1) * e2
  have hdp : vcross P1 P2 2 = dp2 P1 P2 := by
    unfold vcross dp2; simp only [pt3_2]; ring
  rw [hdp]
  rw [triInt_eq]
  obtain ⟨d, hd⟩ : ∃ d, -nd P1 P2 (vsub D C) = d := ⟨_, rfl⟩
  have hrd : nd P1 P2 (vsub D C) = -d := by rw [← hd]; ring
  have o0 : offPlane C P1 P2 D = -d := by rw [hr, hrd]
  rw [hrd] at hr1 hr2 hpl
  rw [hd]
  obtain ⟨q1, hq1⟩ : ∃ q, nd P1 P2 Q1 = q := ⟨_, rfl⟩
  obtain ⟨q2, hq2⟩ : ∃ q, nd P1 P2 Q2 = q := ⟨_, rfl⟩
  simp only [hq1, hq2] at hr1 hr2 hpl ⊢
  by_cases hz : q1 = 0 ∧ q2 = 0
  · rw [if_pos hz]
    by_cases hd0 : d = 0
    · exfalso
      apply hop
      rw [hz.1] at hr1; rw [hz.2] at hr2
      exact ⟨by rw [o0, hd0, neg_zero], by rw [hr1, hd0]; ring, by rw [hr2, hd0]; ring⟩
    · rw [if_pos hd0]
      refine ⟨fun h => absurd h (by decide), fun h => ?_⟩
      obtain ⟨x, y, -, e⟩ := hpl h.1
      rw [hz.1, hz.2] at e
      exact absurd (by linarith) hd0
  rw [if_neg hz]
  have hz' : q1 ≠ 0 ∨ q2 ≠ 0 := by rw [not_and_or] at hz; exact hz
  have hzn : nd P1 P2 Q1 ≠ 0 ∨ nd P1 P2 Q2 ≠ 0 := by rw [hq1, hq2]; exact hz'
  have fin : ∀ {b : Bool} {M : Prop}, M → b = false → (b = true ↔ TriMeet C P1 P2 D Q1 Q2 ∧ ¬ M) := by
    intro b M hM hb
    rw [hb]
    exact ⟨fun h => absurd h (by decide), fun h => absurd hM h.2⟩
  have pass : ∀ {b : Bool}, dp2 P1 P2 ≠ 0 → ¬ FirstOnly C P1 P2 D Q1 Q2 → ¬ OtherTouches C P1 P2 D Q1 Q2 →
      (b = true ↔ TriMeet C P1 P2 D Q1 Q2 ∧ ¬ CornerOutside C P1 P2 D Q1 Q2) →
      (b = true ↔ TriMeet C P1 P2 D Q1 Q2 ∧ ¬ (dp2 P1 P2 = 0 ∨ FirstOnly C P1 P2 D Q1 Q2 ∨ OtherTouches C P1 P2 D Q1 Q2 ∨
        CornerOutside C P1 P2 D Q1 Q2)) := by
    intro b h1 h2 h3 h
    rw [h]
    simp only [h1, h2, h3, false_or]
  by_cases l1 : Legal d q1
  · have n1 := l1.2.2
    have m1 : d / q1 * q1 = d := div_mul_cancel₀ _ n1
    obtain ⟨s0, s1⟩ := legal_param l1
    by_cases l2 : Legal d q2
    · have n2 := l2.2.2
      have m2 : d / q2 * q2 = d := div_mul_cancel₀ _ n2
      obtain ⟨u0, u1⟩ := legal_param l2
      rw [legalBool'.2 l1, legalBool'.2 l2]
      simp only [Bool.not_true, Bool.and_self, Bool.false_eq_true, if_false, if_true]
      unfold triInt2D
      by_cases hv : dp2 P1 P2 = 0
      · refine fin (Or.inl hv) (chord_vertical (b1 := 0 - d / q1) (b2 := d / q2 - 0) hv ?_ ?_ ?_ hzn)
        · linear_combination (q2 * Q1 0) * m1 - (q1 * Q2 0) * m2
        · linear_combination (q2 * Q1 1) * m1 - (q1 * Q2 1) * m2
        · rw [hq1, hq2]; linear_combination m2 - m1
      by_cases hd0 : d = 0
      · refine fin (Or.inr (Or.inl ⟨by rw [o0, hd0, neg_zero], ?_, ?_⟩)) (test2D_flat ?_ ?_)
        · rw [hr1, hd0, neg_zero, zero_add]; exact n1
        · rw [hr2, hd0, neg_zero, zero_add]; exact n2
        · rw [hd0]; ring
        · rw [hd0]; ring
      refine pass hv (fun h => ?_) ?_ ?_
      · have := h.1; rw [o0] at this; exact hd0 (by linarith)
      · rintro (⟨-, t2⟩ | ⟨-, t2⟩)
        · rw [o0, hr2] at t2
          have := (legal_iff hd0).1 l2
          linarith
        · rw [o0, hr1] at t2
          have := (legal_iff hd0).1 l1
          linarith
      refine chord_exact (a1 := d / q1) (a2 := 0) (b1 := 0) (b2 := d / q2) (mul_ne_zero n1 n2) ?_ ?_ ?_ ?_ ?_ ?_ hzn hv hQ
        (Or.inr (by rw [sub_zero]; exact div_ne_zero hd0 n2)) ⟨s0, le_refl _, by linarith⟩ ⟨le_refl _, u0, by linarith⟩ ?_
      · show q1 * q2 * (D 0 - C 0) + _ = _; linear_combination (-(q2 * Q1 0)) * m1
      · show q1 * q2 * (D 1 - C 1) + _ = _; linear_combination (-(q2 * Q1 1)) * m1
      · linear_combination (q2 * Q1 0) * m1 - (q1 * Q2 0) * m2
      · linear_combination (q2 * Q1 1) * m1 - (q1 * Q2 1) * m2
      · rw [hrd, hq1, hq2]; linear_combination m1
      · rw [hrd, hq1, hq2]; linear_combination m2
      · intro x y hs e
        rw [hrd, hq1, hq2] at e
        rcases chord_coeffs hd0 hs (by linarith : x * q1 + y * q2 = d) with ⟨_, _, l, c0, c1, ex, ey⟩ | ⟨_, k, _⟩ | ⟨k, _⟩
        · exact ⟨l, c0, c1, by rw [ex]; ring, by rw [ey]; ring⟩
        · exact absurd l2 k
        · exact absurd l1 k
    · have f2 : (decide (d * q2 ≥ 0) && decide (d * q2 ≤ q2 * q2) && decide (q2 ≠ 0)) = false := by
        rw [← Bool.not_eq_true]; exact fun hh => l2 (legalBool'.1 hh)
      obtain ⟨n3, v0, v1⟩ := legal_third l1 l2
      have m3 : (d - q1) / (q2 - q1) * (q2 - q1) = d - q1 := div_mul_cancel₀ _ n3
      rw [legalBool'.2 l1, f2]
      simp only [Bool.not_true, Bool.not_false, Bool.and_false, Bool.false_and, Bool.false_eq_true, if_false, if_true]
      unfold triInt2D
      have E0 : (q1 * (q2 - q1) - (d - q1) * q1 - (d * q2 - d * q1)) * Q1 0 + (d - q1) * q1 * Q2 0 =
          q1 * (q2 - q1) * ((1 - (d - q1) / (q2 - q1) - d / q1) * Q1 0 + ((d - q1) / (q2 - q1) - 0) * Q2 0) := by
        linear_combination ((q2 - q1) * Q1 0) * m1 + (q1 * Q1 0 - q1 * Q2 0) * m3
      have E1 : (q1 * (q2 - q1) - (d - q1) * q1 - (d * q2 - d * q1)) * Q1 1 + (d - q1) * q1 * Q2 1 =
          q1 * (q2 - q1) * ((1 - (d - q1) / (q2 - q1) - d / q1) * Q1 1 + ((d - q1) / (q2 - q1) - 0) * Q2 1) := by
        linear_combination ((q2 - q1) * Q1 1) * m1 + (q1 * Q1 1 - q1 * Q2 1) * m3
      by_cases hv : dp2 P1 P2 = 0
      · refine fin (Or.inl hv) (chord_vertical hv E0 E1 ?_ hzn)
        rw [hq1, hq2]; linear_combination m3 - m1
      by_cases hd1 : d = q1
      · refine fin (Or.inr (Or.inr (Or.inl (Or.inl ⟨by rw [hr1, hd1]; ring, ?_⟩)))) (test2D_flat ?_ ?_)
        · have hd0 : d ≠ 0 := by rw [hd1]; exact n1
          have : d * q2 < d * d := not_le.1 (fun h => l2 ((legal_iff hd0).2 h))
          rw [o0, hr2]; linarith
        · rw [hd1]; ring
        · rw [hd1]; ring
      have hd1' : d - q1 ≠ 0 := fun h => hd1 (by linarith)
      refine pass hv (fun h => ?_) ?_ ?_
      · have h0 := h.1
        have h2 := h.2.2
        rw [o0] at h0
        have hd0 : d = 0 := by linarith
        rw [hr2, hd0] at h2
        rw [hd0, legal_zero, not_not] at l2
        apply h2; rw [l2]; ring
      · rintro (⟨t1, t2⟩ | ⟨t1, t2⟩)
        · rw [hr1] at t1; exact hd1 (by linarith)
        · rw [hr2] at t1
          rw [o0] at t2
          have e : q2 = d := by linarith
          have hd0 : d ≠ 0 := by rintro rfl; simp at t2
          apply l2; rw [e, legal_iff hd0]
      refine chord_exact (a1 := d / q1) (a2 := 0) (b1 := 1 - (d - q1) / (q2 - q1)) (b2 := (d - q1) / (q2 - q1)) (mul_ne_zero n1 n3)
        ?_ ?_ E0 E1 ?_ ?_ hzn hv hQ (Or.inr (by rw [sub_zero]; exact div_ne_zero hd1' n3)) ⟨s0, le_refl _, by linarith⟩
        (third_simplex v0 v1) ?_
      · show q1 * (q2 - q1) * (D 0 - C 0) + _ = _; linear_combination (-((q2 - q1) * Q1 0)) * m1
      · show q1 * (q2 - q1) * (D 1 - C 1) + _ = _; linear_combination (-((q2 - q1) * Q1 1)) * m1
      · rw [hrd, hq1, hq2]; linear_combination m1
      · rw [hrd, hq1, hq2]; linear_combination m3
      · intro x y hs e
        rw [hrd, hq1, hq2] at e
        by_cases hd0 : d = 0
        · rw [hd0, legal_zero, not_not] at l2
          rw [hd0, l2] at e ⊢
          have hx : x = 0 := (mul_eq_zero.1 (by linarith : x * q1 = 0)).resolve_right n1
          have q : (0 - q1) / (0 - q1) = 1 := div_self (by rw [zero_sub]; exact neg_ne_zero.2 n1)
          exact ⟨y, hs.2.1, by have := hs.2.2; have := hs.1; linarith, by rw [q, zero_div, hx]; ring, by rw [q]; ring⟩
        · rcases chord_coeffs hd0 hs (by linarith : x * q1 + y * q2 = d) with ⟨_, k, _⟩ | ⟨_, _, l, c0, c1, ex, ey⟩ | ⟨k, _⟩
          · exact absurd k l2
          · exact ⟨l, c0, c1, ex, by rw [ey]; ring⟩
          · exact absurd l1 k
  · have f1 : (decide (d * q1 ≥ 0) && decide (d * q1 ≤ q1 * q1) && decide (q1 ≠ 0)) = false := by
      rw [← Bool.not_eq_true]; exact fun hh => l1 (legalBool'.1 hh)
    by_cases l2 : Legal d q2
    · have n2 := l2.2.2
      have m2 : d / q2 * q2 = d := div_mul_cancel₀ _ n2
      obtain ⟨u0, u1⟩ := legal_param l2
      obtain ⟨n3, v0, v1⟩ := legal_third' l1 l2
      have m3 : (d - q1) / (q2 - q1) * (q2 - q1) = d - q1 := div_mul_cancel₀ _ n3
      rw [legalBool'.2 l2, f1]
      simp only [Bool.not_true, Bool.not_false, Bool.and_false, Bool.and_true, Bool.false_and, Bool.false_eq_true, if_false, if_true]
      unfold triInt2D
      have E0 : (q2 * (q2 - q1) - (d - q1) * q2) * Q1 0 + ((d - q1) * q2 - (d * q2 - d * q1)) * Q2 0 =
          q2 * (q2 - q1) * ((1 - (d - q1) / (q2 - q1) - 0) * Q1 0 + ((d - q1) / (q2 - q1) - d / q2) * Q2 0) := by
        linear_combination ((q2 - q1) * Q2 0) * m2 + (q2 * Q1 0 - q2 * Q2 0) * m3
      have E1 : (q2 * (q2 - q1) - (d - q1) * q2) * Q1 1 + ((d - q1) * q2 - (d * q2 - d * q1)) * Q2 1 =
          q2 * (q2 - q1) * ((1 - (d - q1) / (q2 - q1) - 0) * Q1 1 + ((d - q1) / (q2 - q1) - d / q2) * Q2 1) := by
        linear_combination ((q2 - q1) * Q2 1) * m2 + (q2 * Q1 1 - q2 * Q2 1) * m3
      by_cases hv : dp2 P1 P2 = 0
      · refine fin (Or.inl hv) (chord_vertical hv E0 E1 ?_ hzn)
        rw [hq1, hq2]; linear_combination m3 - m2
      by_cases hd1 : d = q2
      · refine fin (Or.inr (Or.inr (Or.inl (Or.inr ⟨by rw [hr2, hd1]; ring, ?_⟩)))) (test2D_flat ?_ ?_)
        · have hd0 : d ≠ 0 := by rw [hd1]; exact n2
          have : d * q1 < d * d := not_le.1 (fun h => l1 ((legal_iff hd0).2 h))
          rw [o0, hr1]; linarith
        · rw [hd1]; ring
        · rw [hd1]; ring
      have hne : 1 - (d - q1) / (q2 - q1) - 0 ≠ 0 := by
        intro h
        have : (d - q1) / (q2 - q1) = 1 := by linarith
        rw [this] at m3
        exact hd1 (by linarith)
      refine pass hv (fun h => ?_) ?_ ?_
      · have h0 := h.1
        have h2 := h.2.1
        rw [o0] at h0
        have hd0 : d = 0 := by linarith
        rw [hr1, hd0] at h2
        rw [hd0, legal_zero, not_not] at l1
        apply h2; rw [l1]; ring
      · rintro (⟨t1, t2⟩ | ⟨t1, t2⟩)
        · rw [hr1] at t1
          rw [o0] at t2
          have e : q1 = d := by linarith
          have hd0 : d ≠ 0 := by rintro rfl; simp at t2
          apply l1; rw [e, legal_iff hd0]
        · rw [hr2] at t1; exact hd1 (by linarith)
      refine chord_exact (a1 := 0) (a2 := d / q2) (b1 := 1 - (d - q1) / (q2 - q1)) (b2 := (d - q1) / (q2 - q1)) (mul_ne_zero n2 n3)
        ?_ ?_ E0 E1 ?_ ?_ hzn hv hQ (Or.inl hne) ⟨le_refl _, u0, by linarith⟩ (third_simplex v0 v1) ?_
      · show q2 * (q2 - q1) * (D 0 - C 0) + _ = _; linear_combination (-((q2 - q1) * Q2 0)) * m2
      · show q2 * (q2 - q1) * (D 1 - C 1) + _ = _; linear_combination (-((q2 - q1) * Q2 1)) * m2
      · rw [hrd, hq1, hq2]; linear_combination m2
      · rw [hrd, hq1, hq2]; linear_combination m3
      · intro x y hs e
        rw [hrd, hq1, hq2] at e
        by_cases hd0 : d = 0
        · rw [hd0, legal_zero, not_not] at l1
          rw [hd0, l1] at e ⊢
          have hy : y = 0 := (mul_eq_zero.1 (by linarith : y * q2 = 0)).resolve_right n2
          exact ⟨x, hs.1, by have := hs.2.2; have := hs.2.1; linarith, by simp, by rw [hy]; simp⟩
        · rcases chord_coeffs hd0 hs (by linarith : x * q1 + y * q2 = d) with ⟨k, _⟩ | ⟨k, _⟩ | ⟨_, _, l, c0, c1, ex, ey⟩
          · exact absurd k l1
          · exact absurd k l1
          · exact ⟨l, c0, c1, by rw [ex]; ring, ey⟩
    · have f2 : (decide (d * q2 ≥ 0) && decide (d * q2 ≤ q2 * q2) && decide (q2 ≠ 0)) = false := by
        rw [← Bool.not_eq_true]; exact fun hh => l2 (legalBool'.1 hh)
      rw [f1, f2]
      simp only [Bool.not_false, Bool.and_self, if_true]
      refine ⟨fun h => absurd h (by decide), fun h => ?_⟩
      obtain ⟨x, y, hs, e⟩ := hpl h.1
      by_cases hd0 : d = 0
      · rw [hd0, legal_zero, not_not] at l1 l2
        exact absurd ⟨l1, l2⟩ hz
      · rcases chord_coeffs hd0 hs (by linarith : x * q1 + y * q2 = d) with ⟨k, _⟩ | ⟨k, _⟩ | ⟨_, k, _⟩
        · exact absurd k l1
        · exact absurd k l1
        · exact absurd k l2

theorem pt3_ne {a b : Pt ℚ} (k : Fin 3) (h : a k ≠ b k) : a ≠ b := fun e => h (congrFun e k)

/-- Each kind of missed pair occurs, with triangles that do meet. A plane that is vertical: -/
theorem C38_missed_vertical : ∃ C P1 P2 D Q1 Q2 : Pt ℚ, vcross P1 P2 ≠ 0 ∧ vcross Q1 Q2 ≠ 0 ∧ TriMeet C P1 P2 D Q1 Q2 ∧
    vcross P1 P2 2 = 0 ∧ ¬ FirstOnly C P1 P2 D Q1 Q2 ∧ ¬ OtherTouches C P1 P2 D Q1 Q2 ∧ ¬ CornerOutside C P1 P2 D Q1 Q2 ∧
    triInt C P1 P2 D Q1 Q2 = false :=
  ⟨pt3 0 0 0, pt3 0 4 0, pt3 0 0 4, pt3 (-1) 1 1, pt3 2 0 0, pt3 2 (1/2) 0, pt3_ne 0 (by decide +kernel), pt3_ne 2 (by decide +kernel),
    C38_counterexample_vertical.1, by decide +kernel, fun h => absurd h.1 (by decide +kernel),
    fun h => h.elim (fun h => absurd h.1 (by decide +kernel)) (fun h => absurd h.1 (by decide +kernel)),
    fun h => absurd h.1 (by decide +kernel), by decide +kernel⟩

/-- The first corner of triangle 2 alone in the plane, although triangle 2 goes right through triangle 1: -/
theorem C38_missed_firstOnly : ∃ C P1 P2 D Q1 Q2 : Pt ℚ, TriMeet C P1 P2 D Q1 Q2 ∧ vcross P1 P2 2 ≠ 0 ∧ FirstOnly C P1 P2 D Q1 Q2 ∧
    offPlane C P1 P2 (vadd D Q1) * offPlane C P1 P2 (vadd D Q2) < 0 ∧ ¬ CornerOutside C P1 P2 D Q1 Q2 ∧ triInt C P1 P2 D Q1 Q2 = false :=
  ⟨pt3 0 0 0, pt3 4 0 0, pt3 0 4 0, pt3 1 1 0, pt3 1 0 1, pt3 1 0 (-1),
    ⟨pt3 1 1 0, ⟨1/4, 1/4, by norm_num, by norm_num, by norm_num,
      fin3_all (by decide +kernel) (by decide +kernel) (by decide +kernel)⟩, ⟨0, 0, by norm_num, by norm_num, by norm_num,
      fin3_all (by decide +kernel) (by decide +kernel) (by decide +kernel)⟩⟩, by decide +kernel,
    ⟨by decide +kernel, by decide +kernel, by decide +kernel⟩, by decide +kernel, fun h => absurd h.1 (by decide +kernel), by decide +kernel⟩

/-- Another corner of triangle 2 touching the inside of triangle 1: -/
theorem C38_missed_touch : ∃ C P1 P2 D Q1 Q2 : Pt ℚ, TriMeet C P1 P2 D Q1 Q2 ∧ vcross P1 P2 2 ≠ 0 ∧ OtherTouches C P1 P2 D Q1 Q2 ∧
    ¬ CornerOutside C P1 P2 D Q1 Q2 ∧ triInt C P1 P2 D Q1 Q2 = false :=
  ⟨pt3 0 0 0, pt3 4 0 0, pt3 0 4 0, pt3 1 1 2, pt3 0 0 (-2), pt3 1 0 0,
    ⟨pt3 1 1 0, ⟨1/4, 1/4, by norm_num, by norm_num, by norm_num,
      fin3_all (by decide +kernel) (by decide +kernel) (by decide +kernel)⟩, ⟨1, 0, by norm_num, by norm_num, by norm_num,
      fin3_all (by decide +kernel) (by decide +kernel) (by decide +kernel)⟩⟩, by decide +kernel,
    Or.inl ⟨by decide +kernel, by decide +kernel⟩, fun h => absurd h.1 (by decide +kernel), by decide +kernel⟩

/-- The plane of triangle 2 passing through the first corner of triangle 1, with triangle 2 cutting the inside of
triangle 1 away from that corner: -/
theorem C38_missed_cornerOutside : ∃ C P1 P2 D Q1 Q2 : Pt ℚ, TriMeet C P1 P2 D Q1 Q2 ∧ vcross P1 P2 2 ≠ 0 ∧
    ¬ FirstOnly C P1 P2 D Q1 Q2 ∧ ¬ OtherTouches C P1 P2 D Q1 Q2 ∧ CornerOutside C P1 P2 D Q1 Q2 ∧ triInt C P1 P2 D Q1 Q2 = false := by
  refine ⟨pt3 0 0 0, pt3 4 0 0, pt3 0 4 0, pt3 1 1 (-1), pt3 0 0 2, pt3 (1/2) (1/2) 2,
    ⟨pt3 1 1 0, ⟨1/4, 1/4, by norm_num, by norm_num, by norm_num,
      fin3_all (by decide +kernel) (by decide +kernel) (by decide +kernel)⟩, ⟨1/2, 0, by norm_num, by norm_num, by norm_num,
      fin3_all (by decide +kernel) (by decide +kernel) (by decide +kernel)⟩⟩, by decide +kernel, fun h => absurd h.1 (by decide +kernel),
    fun h => h.elim (fun h => absurd h.1 (by decide +kernel)) (fun h => absurd h.1 (by decide +kernel)),
    ⟨by decide +kernel, by decide +kernel, by decide +kernel, ?_⟩, by decide +kernel⟩
  rintro ⟨a, b, a0, b0, ab, e⟩
  have h0 := e 0
  simp only [pt3_0] at h0
  linarith

/-- The answer depends on the order: of two triangles that meet, the test with the arguments exchanged finds what the
test as called misses. -/
theorem C38_order_matters : ∃ C P1 P2 D Q1 Q2 : Pt ℚ, vcross P1 P2 ≠ 0 ∧ vcross Q1 Q2 ≠ 0 ∧
    triInt C P1 P2 D Q1 Q2 = false ∧ triInt D Q1 Q2 C P1 P2 = true :=
  ⟨pt3 0 0 0, pt3 4 0 1, pt3 0 4 1, pt3 1 1 (1/2), pt3 1 0 1, pt3 1 (1/2) (-1), pt3_ne 2 (by decide +kernel), pt3_ne 2 (by decide +kernel),
    by decide +kernel, by decide +kernel⟩

/-- **C38 for whole meshes**, with no assumption about the position: the kernel answers yes exactly if some pair of
triangles has a point in common and is not one of the missed pairs. -/
theorem C38_mesh_characterisation (d1 d2 : Nat → ℚ) (n1 n2 : Nat)
    (h1 : ∀ i < n1, vcross (ptAt d1 (9 * i + 3)) (ptAt d1 (9 * i + 6)) ≠ 0)
    (h2 : ∀ j < n2, vcross (ptAt d2 (9 * j + 3)) (ptAt d2 (9 * j + 6)) ≠ 0) :
    triIntSingle d1 d2 n1 n2 = true ↔ ∃ i < n1, ∃ j < n2, arrMeet d1 d2 i j ∧
      ¬ Missed (ptAt d1 (9 * i)) (ptAt d1 (9 * i + 3)) (ptAt d1 (9 * i + 6)) (ptAt d2 (9 * j)) (ptAt d2 (9 * j + 3)) (ptAt d2 (9 * j + 6)) := by
  rw [C38_single]
  constructor
  · rintro ⟨i, hi, j, hj, h⟩
    exact ⟨i, hi, j, hj, (C38_characterisation (h1 i hi) (h2 j hj)).1 h⟩
  · rintro ⟨i, hi, j, hj, h⟩
    exact ⟨i, hi, j, hj, (C38_characterisation (h1 i hi) (h2 j hj)).2 h⟩

end TDP.Kernels
