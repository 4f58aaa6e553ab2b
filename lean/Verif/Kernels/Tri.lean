import Verif.Kernels.Tri2D
import Verif.Kernels.Props
import Mathlib.Tactic.FinCases
import Mathlib.Tactic.Positivity
/-! C38: the triangle intersection test. -/
namespace TDP.Kernels
open TDP.Boxes

/-- Specification: `x` is a point of the triangle with corners `C`, `C+P1`, `C+P2`. -/
def InTri (C P1 P2 x : Pt ℚ) : Prop :=
  ∃ a b : ℚ, 0 ≤ a ∧ 0 ≤ b ∧ a + b ≤ 1 ∧ ∀ i, x i = C i + a * P1 i + b * P2 i

/-- Specification: the two triangles have a point in common. -/
def TriMeet (C P1 P2 D Q1 Q2 : Pt ℚ) : Prop := ∃ x, InTri C P1 P2 x ∧ InTri D Q1 Q2 x

/-- Specification: the signed distance (times the length of the normal) of `x` from the plane of a triangle. -/
def offPlane (C P1 P2 x : Pt ℚ) : ℚ := vdot (vcross P1 P2) (vsub x C)

theorem fin3_all {p : Fin 3 → Prop} (h0 : p 0) (h1 : p 1) (h2 : p 2) : ∀ i, p i := by
  intro i; fin_cases i
  · exact h0
  · exact h1
  · exact h2

@[simp] theorem pt3_0 (a b c : ℚ) : pt3 a b c 0 = a := rfl
@[simp] theorem pt3_1 (a b c : ℚ) : pt3 a b c 1 = b := rfl
@[simp] theorem pt3_2 (a b c : ℚ) : pt3 a b c 2 = c := rfl

/-! ## The chord cut out of the second triangle -/

section
variable {P1 P2 r Q1 Q2 : Pt ℚ}

theorem test2D_scaled_sound {SF A0 A1 B0 B1 p10 p11 p20 p21 : ℚ} (h : SF ≠ 0)
    (ht : test2D (SF * p10) (SF * p11) (SF * p20) (SF * p21) (SF * A0) (SF * A1) (SF * (B0 - A0)) (SF * (B1 - A1)) = true) :
    ∃ g x y, 0 ≤ g ∧ g ≤ 1 ∧ Simplex x y ∧ A0 + g * (B0 - A0) = x * p10 + y * p20 ∧ A1 + g * (B1 - A1) = x * p11 + y * p21 := by
  obtain ⟨g, x, y, h0, h1, hs, e0, e1⟩ := test2D_sound ht
  refine ⟨g, x, y, h0, h1, hs, ?_, ?_⟩
  · apply mul_left_cancel₀ h; linear_combination e0
  · apply mul_left_cancel₀ h; linear_combination e1

theorem test2D_scaled_complete {SF A0 A1 B0 B1 p10 p11 p20 p21 g x y : ℚ} (h : SF ≠ 0) (hw : A0 * B1 - B0 * A1 ≠ 0)
    (h0 : 0 ≤ g) (h1 : g ≤ 1) (hs : Simplex x y) (e0 : A0 + g * (B0 - A0) = x * p10 + y * p20)
    (e1 : A1 + g * (B1 - A1) = x * p11 + y * p21) :
    test2D (SF * p10) (SF * p11) (SF * p20) (SF * p21) (SF * A0) (SF * A1) (SF * (B0 - A0)) (SF * (B1 - A1)) = true := by
  refine test2D_complete ?_ h0 h1 hs ⟨by linear_combination SF * e0, by linear_combination SF * e1⟩
  intro hh
  have : SF * SF * (A0 * B1 - B0 * A1) = 0 := by linear_combination hh
  rcases mul_eq_zero.1 this with h' | h'
  · exact mul_self_ne_zero.2 h h'
  · exact hw h'

theorem test2D_flat {p10 p11 p20 p21 r0 r1 t0 t1 : ℚ} (h1 : p10 * t1 - t0 * p11 = 0) (h2 : p20 * t1 - t0 * p21 = 0) :
    test2D p10 p11 p20 p21 r0 r1 t0 t1 = false := by
  by_contra h
  rw [Bool.not_eq_false] at h
  rcases test2D_iff.1 h with ⟨a, _⟩ | ⟨a, _⟩ | ⟨_, a, _⟩
  · exact a.2.2 h1
  · exact a.2.2 h1
  · exact a.2.2 h2

/-- The three determinants of the code: the normal of the first triangle. -/
def dp0 (P1 P2 : Pt ℚ) : ℚ := P1 1 * P2 2 - P2 1 * P1 2
def dp1 (P1 P2 : Pt ℚ) : ℚ := P1 0 * P2 2 - P2 0 * P1 2
def dp2 (P1 P2 : Pt ℚ) : ℚ := P1 0 * P2 1 - P2 0 * P1 1
/-- `n·v`. -/
def nd (P1 P2 v : Pt ℚ) : ℚ := v 0 * dp0 P1 P2 - v 1 * dp1 P1 P2 + v 2 * dp2 P1 P2

theorem nd_eq (P1 P2 v : Pt ℚ) : nd P1 P2 v = vdot (vcross P1 P2) v := by
  unfold nd dp0 dp1 dp2 vdot vcross; simp only [pt3_0, pt3_1, pt3_2]; ring

/-- The chord between the points of the second triangle with coefficients `a` and `b` (both on the plane of the
first): if the scaled planar test says yes, the triangles meet. -/
theorem chord_sound {C D : Pt ℚ} {SF a1 a2 b1 b2 r40 r41 t0 t1 : ℚ} (hSF : SF ≠ 0)
    (hr0 : r40 = SF * (D 0 - C 0 + a1 * Q1 0 + a2 * Q2 0)) (hr1 : r41 = SF * (D 1 - C 1 + a1 * Q1 1 + a2 * Q2 1))
    (ht0 : t0 = SF * ((b1 - a1) * Q1 0 + (b2 - a2) * Q2 0)) (ht1 : t1 = SF * ((b1 - a1) * Q1 1 + (b2 - a2) * Q2 1))
    (ha : nd P1 P2 (vsub D C) + a1 * nd P1 P2 Q1 + a2 * nd P1 P2 Q2 = 0)
    (hb : nd P1 P2 (vsub D C) + b1 * nd P1 P2 Q1 + b2 * nd P1 P2 Q2 = 0)
    (hq : nd P1 P2 Q1 ≠ 0 ∨ nd P1 P2 Q2 ≠ 0)
    (sa : Simplex a1 a2) (sb : Simplex b1 b2)
    (h : test2D (SF * P1 0) (SF * P1 1) (SF * P2 0) (SF * P2 1) r40 r41 t0 t1 = true) :
    TriMeet C P1 P2 D Q1 Q2 := by
  by_cases hd : dp2 P1 P2 = 0
  · -- a vertical plane: the planar test cannot say yes
    exfalso
    have ht : t0 * dp0 P1 P2 - t1 * dp1 P1 P2 = 0 := by
      rw [ht0, ht1]
      unfold nd at ha hb
      rw [hd] at ha hb
      linear_combination SF * hb - SF * ha
    have hP1 : P1 0 * dp0 P1 P2 - P1 1 * dp1 P1 P2 = 0 := by
      have : P1 0 * dp0 P1 P2 - P1 1 * dp1 P1 P2 + P1 2 * dp2 P1 P2 = 0 := by unfold dp0 dp1 dp2; ring
      rw [hd] at this; linarith
    have hP2 : P2 0 * dp0 P1 P2 - P2 1 * dp1 P1 P2 = 0 := by
      have : P2 0 * dp0 P1 P2 - P2 1 * dp1 P1 P2 + P2 2 * dp2 P1 P2 = 0 := by unfold dp0 dp1 dp2; ring
      rw [hd] at this; linarith
    have hn : dp0 P1 P2 ≠ 0 ∨ dp1 P1 P2 ≠ 0 := by
      by_contra hh
      rw [not_or, not_not, not_not] at hh
      unfold nd at hq
      rw [hd, hh.1, hh.2] at hq
      simp at hq
    have par : ∀ v0 v1 : ℚ, v0 * dp0 P1 P2 - v1 * dp1 P1 P2 = 0 → v0 * t1 - t0 * v1 = 0 := by
      intro v0 v1 hv
      rcases hn with hn | hn
      · apply mul_left_cancel₀ hn; linear_combination t1 * hv - v1 * ht
      · apply mul_left_cancel₀ hn; linear_combination t0 * hv - v0 * ht
    have f1 : SF * P1 0 * t1 - t0 * (SF * P1 1) = 0 := by linear_combination SF * par _ _ hP1
    have f2 : SF * P2 0 * t1 - t0 * (SF * P2 1) = 0 := by linear_combination SF * par _ _ hP2
    rw [test2D_flat f1 f2] at h
    exact absurd h (by decide)
  · have e0 : t0 = SF * ((D 0 - C 0 + b1 * Q1 0 + b2 * Q2 0) - (D 0 - C 0 + a1 * Q1 0 + a2 * Q2 0)) := by rw [ht0]; ring
    have e1 : t1 = SF * ((D 1 - C 1 + b1 * Q1 1 + b2 * Q2 1) - (D 1 - C 1 + a1 * Q1 1 + a2 * Q2 1)) := by rw [ht1]; ring
    rw [hr0, hr1, e0, e1] at h
    obtain ⟨g, x, y, h0, h1, hs, E0, E1⟩ := test2D_scaled_sound hSF h
    have h1g : 0 ≤ 1 - g := by linarith
    obtain ⟨sa1, sa2, sa3⟩ := sa
    obtain ⟨sb1, sb2, sb3⟩ := sb
    -- the point of the chord
    set c1 := (1 - g) * a1 + g * b1 with hc1
    set c2 := (1 - g) * a2 + g * b2 with hc2
    have hc : nd P1 P2 (vsub D C) + c1 * nd P1 P2 Q1 + c2 * nd P1 P2 Q2 = 0 := by
      rw [hc1, hc2]; linear_combination (1 - g) * ha + g * hb
    have X0 : D 0 - C 0 + c1 * Q1 0 + c2 * Q2 0 = x * P1 0 + y * P2 0 := by
      rw [hc1, hc2]; linear_combination E0
    have X1 : D 1 - C 1 + c1 * Q1 1 + c2 * Q2 1 = x * P1 1 + y * P2 1 := by
      rw [hc1, hc2]; linear_combination E1
    have X2 : D 2 - C 2 + c1 * Q1 2 + c2 * Q2 2 = x * P1 2 + y * P2 2 := by
      have hP1 : nd P1 P2 P1 = 0 := by unfold nd dp0 dp1 dp2; ring
      have hP2 : nd P1 P2 P2 = 0 := by unfold nd dp0 dp1 dp2; ring
      apply mul_right_cancel₀ hd
      unfold nd vsub at hc
      unfold nd at hP1 hP2
      simp only [pt3_0, pt3_1, pt3_2] at hc
      linear_combination hc - x * hP1 - y * hP2 - dp0 P1 P2 * X0 + dp1 P1 P2 * X1
    refine ⟨fun i => C i + x * P1 i + y * P2 i, ⟨x, y, hs.1, hs.2.1, hs.2.2, fun i => rfl⟩, c1, c2, ?_, ?_, ?_, ?_⟩
    · rw [hc1]; positivity
    · rw [hc2]; positivity
    · rw [hc1, hc2]
      have q1 := mul_le_mul_of_nonneg_left sa3 h1g
      have q2 := mul_le_mul_of_nonneg_left sb3 h0
      linarith
    · exact fin3_all (by show C 0 + x * P1 0 + y * P2 0 = _; linarith) (by show C 1 + x * P1 1 + y * P2 1 = _; linarith)
        (by show C 2 + x * P1 2 + y * P2 2 = _; linarith)

/-- The converse, in general position. -/
theorem chord_complete {C D : Pt ℚ} {SF a1 a2 b1 b2 r40 r41 t0 t1 : ℚ} (hSF : SF ≠ 0)
    (hr0 : r40 = SF * (D 0 - C 0 + a1 * Q1 0 + a2 * Q2 0)) (hr1 : r41 = SF * (D 1 - C 1 + a1 * Q1 1 + a2 * Q2 1))
    (ht0 : t0 = SF * ((b1 - a1) * Q1 0 + (b2 - a2) * Q2 0)) (ht1 : t1 = SF * ((b1 - a1) * Q1 1 + (b2 - a2) * Q2 1))
    (ha : nd P1 P2 (vsub D C) + a1 * nd P1 P2 Q1 + a2 * nd P1 P2 Q2 = 0)
    (hb : nd P1 P2 (vsub D C) + b1 * nd P1 P2 Q1 + b2 * nd P1 P2 Q2 = 0)
    (hd : dp2 P1 P2 ≠ 0) (hC : vdot (vcross Q1 Q2) (vsub D C) ≠ 0) (hne : a1 ≠ b1 ∨ a2 ≠ b2)
    {l x y : ℚ} (h0 : 0 ≤ l) (h1 : l ≤ 1) (hs : Simplex x y)
    (e : ∀ i, D i + ((1 - l) * a1 + l * b1) * Q1 i + ((1 - l) * a2 + l * b2) * Q2 i = C i + x * P1 i + y * P2 i) :
    test2D (SF * P1 0) (SF * P1 1) (SF * P2 0) (SF * P2 1) r40 r41 t0 t1 = true := by
  have e0 : t0 = SF * ((D 0 - C 0 + b1 * Q1 0 + b2 * Q2 0) - (D 0 - C 0 + a1 * Q1 0 + a2 * Q2 0)) := by rw [ht0]; ring
  have e1 : t1 = SF * ((D 1 - C 1 + b1 * Q1 1 + b2 * Q2 1) - (D 1 - C 1 + a1 * Q1 1 + a2 * Q2 1)) := by rw [ht1]; ring
  rw [hr0, hr1, e0, e1]
  refine test2D_scaled_complete hSF ?_ h0 h1 hs (by have := e 0; linear_combination this) (by have := e 1; linear_combination this)
  -- the line of the chord misses the corner
  intro hz
  unfold nd vsub at ha hb
  simp only [pt3_0, pt3_1, pt3_2] at ha hb
  unfold vdot vcross vsub at hC
  simp only [pt3_0, pt3_1, pt3_2] at hC
  have k1 : dp2 P1 P2 * (b2 - a2) * ((Q1 1 * Q2 2 - Q1 2 * Q2 1) * (D 0 - C 0) + (Q1 2 * Q2 0 - Q1 0 * Q2 2) * (D 1 - C 1) +
      (Q1 0 * Q2 1 - Q1 1 * Q2 0) * (D 2 - C 2)) = 0 := by
    linear_combination (-(Q1 0 * dp0 P1 P2 - Q1 1 * dp1 P1 P2 + Q1 2 * dp2 P1 P2)) * hz
      - (Q1 0 * (D 1 - C 1 + a1 * Q1 1 + a2 * Q2 1) - Q1 1 * (D 0 - C 0 + a1 * Q1 0 + a2 * Q2 0)) * hb
      + (Q1 0 * (D 1 - C 1 + b1 * Q1 1 + b2 * Q2 1) - Q1 1 * (D 0 - C 0 + b1 * Q1 0 + b2 * Q2 0)) * ha
  have k2 : dp2 P1 P2 * (b1 - a1) * ((Q1 1 * Q2 2 - Q1 2 * Q2 1) * (D 0 - C 0) + (Q1 2 * Q2 0 - Q1 0 * Q2 2) * (D 1 - C 1) +
      (Q1 0 * Q2 1 - Q1 1 * Q2 0) * (D 2 - C 2)) = 0 := by
    linear_combination ((Q2 0 * dp0 P1 P2 - Q2 1 * dp1 P1 P2 + Q2 2 * dp2 P1 P2)) * hz
      + (Q2 0 * (D 1 - C 1 + a1 * Q1 1 + a2 * Q2 1) - Q2 1 * (D 0 - C 0 + a1 * Q1 0 + a2 * Q2 0)) * hb
      - (Q2 0 * (D 1 - C 1 + b1 * Q1 1 + b2 * Q2 1) - Q2 1 * (D 0 - C 0 + b1 * Q1 0 + b2 * Q2 0)) * ha
  rcases hne with hne | hne
  · rcases mul_eq_zero.1 k2 with h | h
    · rcases mul_eq_zero.1 h with h | h
      · exact hd h
      · apply hne; linarith
    · exact hC h
  · rcases mul_eq_zero.1 k1 with h | h
    · rcases mul_eq_zero.1 h with h | h
      · exact hd h
      · apply hne; linarith
    · exact hC h

end
end TDP.Kernels
