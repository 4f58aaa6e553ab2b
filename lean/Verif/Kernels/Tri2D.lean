import Verif.Kernels.Model
import Mathlib.Tactic.Linarith
import Mathlib.Tactic.Ring
import Mathlib.Tactic.FieldSimp
import Mathlib.Tactic.LinearCombination
import Mathlib.Tactic.NormNum
/-! Lemmas for the triangle test: the planar part. -/
namespace TDP.Kernels
open TDP.Boxes

/-- An edge `0..q` is met at height `d`. -/
def Legal (d q : ℚ) : Prop := 0 ≤ d * q ∧ d * q ≤ q * q ∧ q ≠ 0

theorem legal_param {d q : ℚ} (h : Legal d q) : 0 ≤ d / q ∧ d / q ≤ 1 := by
  obtain ⟨h1, h2, h3⟩ := h
  have hq : 0 < q * q := mul_self_pos.2 h3
  have e : d / q = (d * q) / (q * q) := by field_simp
  rw [e]
  exact ⟨div_nonneg h1 (le_of_lt hq), (div_le_one hq).2 h2⟩

/-- If the first edge is met and the second is not, the third is met. -/
theorem legal_third {d q1 q2 : ℚ} (h1 : Legal d q1) (h2 : ¬ Legal d q2) :
    q2 - q1 ≠ 0 ∧ 0 ≤ (d - q1) / (q2 - q1) ∧ (d - q1) / (q2 - q1) ≤ 1 := by
  have main : ∀ d q1 q2 : ℚ, 0 < q1 → Legal d q1 → ¬ Legal d q2 →
      q2 < q1 ∧ d ≤ q1 ∧ q2 ≤ d := by
    intro d q1 q2 hq ⟨a, b, _⟩ h2
    have hd0 : 0 ≤ d := by
      by_contra h
      have := mul_neg_of_neg_of_pos (not_le.1 h) hq
      linarith
    have hd1 : d ≤ q1 := le_of_mul_le_mul_right b hq
    rcases lt_trichotomy q2 0 with h | h | h
    · exact ⟨by linarith, hd1, by linarith⟩
    · exact ⟨by linarith, hd1, by linarith⟩
    · have : q2 < d := by
        by_contra hh
        apply h2
        exact ⟨mul_nonneg hd0 (le_of_lt h), mul_le_mul_of_nonneg_right (not_lt.1 hh) (le_of_lt h), ne_of_gt h⟩
      exact ⟨by linarith, hd1, le_of_lt this⟩
  rcases lt_trichotomy q1 0 with hq | hq | hq
  · obtain ⟨a, b, c⟩ := main (-d) (-q1) (-q2) (by linarith)
      ⟨by have := h1.1; linarith, by have := h1.2.1; linarith, by have := h1.2.2; simpa using this⟩
      (by
        rintro ⟨x, y, z⟩
        exact h2 ⟨by linarith, by linarith, by simpa using z⟩)
    have hp : 0 < q2 - q1 := by linarith
    exact ⟨ne_of_gt hp, div_nonneg (by linarith) (le_of_lt hp), (div_le_one hp).2 (by linarith)⟩
  · exact absurd hq h1.2.2
  · obtain ⟨a, b, c⟩ := main d q1 q2 hq h1 h2
    have hp : q2 - q1 < 0 := by linarith
    exact ⟨ne_of_lt hp, div_nonneg_of_nonpos (by linarith) (le_of_lt hp), (div_le_one_of_neg hp).2 (by linarith)⟩

/-- The same with the roles of the edges exchanged. -/
theorem legal_third' {d q1 q2 : ℚ} (h1 : ¬ Legal d q1) (h2 : Legal d q2) :
    q2 - q1 ≠ 0 ∧ 0 ≤ (d - q1) / (q2 - q1) ∧ (d - q1) / (q2 - q1) ≤ 1 := by
  obtain ⟨a, b, c⟩ := legal_third h2 h1
  have hne : q2 - q1 ≠ 0 := by
    intro h; apply a; linarith
  have e : (d - q1) / (q2 - q1) = 1 - (d - q2) / (q1 - q2) := by
    field_simp
    ring
  exact ⟨hne, by rw [e]; linarith, by rw [e]; linarith⟩

section
variable (p10 p11 p20 p21 r0 r1 t0 t1 : ℚ)

/-- The point of the line at `g` is the point `x p1 + y p2`. -/
def Pt2 (g x y : ℚ) : Prop := r0 + g * t0 = x * p10 + y * p20 ∧ r1 + g * t1 = x * p11 + y * p21

/-- Coefficients of a point of the triangle. -/
def Simplex (x y : ℚ) : Prop := 0 ≤ x ∧ 0 ≤ y ∧ x + y ≤ 1

/-- The condition the code tests on two crossing parameters. -/
def Cond (ga gb : ℚ) : Prop := (0 ≤ ga ∧ ga ≤ 1) ∨ (0 ≤ gb ∧ gb ≤ 1) ∨ ga * gb < 0

variable {p10 p11 p20 p21 r0 r1 t0 t1}

theorem chord_fwd {ga xa ya gb xb yb : ℚ} (ha : Pt2 p10 p11 p20 p21 r0 r1 t0 t1 ga xa ya) (sa : Simplex xa ya)
    (hb : Pt2 p10 p11 p20 p21 r0 r1 t0 t1 gb xb yb) (sb : Simplex xb yb) (hc : Cond ga gb) :
    ∃ g x y, 0 ≤ g ∧ g ≤ 1 ∧ Simplex x y ∧ Pt2 p10 p11 p20 p21 r0 r1 t0 t1 g x y := by
  rcases hc with h | h | h
  · exact ⟨ga, xa, ya, h.1, h.2, sa, ha⟩
  · exact ⟨gb, xb, yb, h.1, h.2, sb, hb⟩
  · -- 0 lies between ga and gb
    have hne : gb - ga ≠ 0 := by
      intro he
      have : gb = ga := by linarith
      rw [this] at h
      have := mul_self_nonneg ga
      linarith
    set l := gb / (gb - ga) with hl
    have hlm : l * (gb - ga) = gb := div_mul_cancel₀ _ hne
    have hl01 : 0 ≤ l ∧ l ≤ 1 := by
      rcases lt_trichotomy ga 0 with ha0 | ha0 | ha0
      · have hb0 : 0 < gb := by
          by_contra hh
          have := mul_nonneg_of_nonpos_of_nonpos (le_of_lt ha0) (not_lt.1 hh)
          linarith
        have hp : 0 < gb - ga := by linarith
        exact ⟨div_nonneg (le_of_lt hb0) (le_of_lt hp), (div_le_one hp).2 (by linarith)⟩
      · rw [ha0] at h; simp at h
      · have hb0 : gb < 0 := by
          by_contra hh
          have := mul_nonneg (le_of_lt ha0) (not_lt.1 hh)
          linarith
        have hp : gb - ga < 0 := by linarith
        exact ⟨div_nonneg_of_nonpos (le_of_lt hb0) (le_of_lt hp), (div_le_one_of_neg hp).2 (by linarith)⟩
    refine ⟨0, l * xa + (1 - l) * xb, l * ya + (1 - l) * yb, le_refl _, by norm_num, ?_, ?_⟩
    · obtain ⟨a1, a2, a3⟩ := sa
      obtain ⟨b1, b2, b3⟩ := sb
      have := hl01.1
      have h1l : 0 ≤ 1 - l := by linarith [hl01.2]
      refine ⟨by positivity, by positivity, ?_⟩
      nlinarith
    · obtain ⟨a1, a2⟩ := ha
      obtain ⟨b1, b2⟩ := hb
      constructor
      · linear_combination l * a1 + (1 - l) * b1 + t0 * hlm
      · linear_combination l * a2 + (1 - l) * b2 + t1 * hlm

/-- Clearing a common denominator. -/
theorem line_div {r g t w p d : ℚ} (h : d ≠ 0) (e : d * r - g * t = w * p) : r + (-g / d) * t = (w / d) * p + 0 := by
  rw [div_mul_eq_mul_div, div_mul_eq_mul_div, add_zero, eq_div_iff h, add_mul, div_mul_cancel₀ _ h]
  linarith

theorem edge1_pt (h : p10 * t1 - t0 * p11 ≠ 0) :
    Pt2 p10 p11 p20 p21 r0 r1 t0 t1 (-(p10 * r1 - r0 * p11) / (p10 * t1 - t0 * p11))
      ((r0 * t1 - t0 * r1) / (p10 * t1 - t0 * p11)) 0 := by
  constructor
  · rw [line_div (w := r0 * t1 - t0 * r1) (p := p10) h (by ring)]; ring
  · rw [line_div (w := r0 * t1 - t0 * r1) (p := p11) h (by ring)]; ring

theorem edge2_pt (h : p20 * t1 - t0 * p21 ≠ 0) :
    Pt2 p10 p11 p20 p21 r0 r1 t0 t1 (-(p20 * r1 - r0 * p21) / (p20 * t1 - t0 * p21))
      0 ((r0 * t1 - t0 * r1) / (p20 * t1 - t0 * p21)) := by
  constructor
  · rw [line_div (w := r0 * t1 - t0 * r1) (p := p20) h (by ring)]; ring
  · rw [line_div (w := r0 * t1 - t0 * r1) (p := p21) h (by ring)]; ring

theorem edge3_pt (h : (p20 * t1 - t0 * p21) - (p10 * t1 - t0 * p11) ≠ 0) :
    Pt2 p10 p11 p20 p21 r0 r1 t0 t1
      (-((p20 - p10) * (r1 - p11) - (r0 - p10) * (p21 - p11)) / ((p20 * t1 - t0 * p21) - (p10 * t1 - t0 * p11)))
      (1 - ((r0 * t1 - t0 * r1) - (p10 * t1 - t0 * p11)) / ((p20 * t1 - t0 * p21) - (p10 * t1 - t0 * p11)))
      (((r0 * t1 - t0 * r1) - (p10 * t1 - t0 * p11)) / ((p20 * t1 - t0 * p21) - (p10 * t1 - t0 * p11))) := by
  constructor
  · have := line_div (r := r0 - p10) (g := (p20 - p10) * (r1 - p11) - (r0 - p10) * (p21 - p11)) (t := t0)
      (w := (r0 * t1 - t0 * r1) - (p10 * t1 - t0 * p11)) (p := p20 - p10) h (by ring)
    linear_combination this
  · have := line_div (r := r1 - p11) (g := (p20 - p10) * (r1 - p11) - (r0 - p10) * (p21 - p11)) (t := t1)
      (w := (r0 * t1 - t0 * r1) - (p10 * t1 - t0 * p11)) (p := p21 - p11) h (by ring)
    linear_combination this

theorem gama_range {g d : ℚ} (h : d ≠ 0) : (g * d ≤ 0 ∧ g * d ≥ -(d * d)) ↔ (0 ≤ -g / d ∧ -g / d ≤ 1) := by
  have hd : 0 < d * d := mul_self_pos.2 h
  have e : -g / d = -(g * d) / (d * d) := by field_simp
  rw [e, le_div_iff₀ hd, zero_mul, div_le_one hd]
  constructor
  · rintro ⟨a, b⟩; exact ⟨by linarith, by linarith⟩
  · rintro ⟨a, b⟩; exact ⟨by linarith, by linarith⟩

theorem gama_prod {g1 d1 g2 d2 : ℚ} (h1 : d1 ≠ 0) (h2 : d2 ≠ 0) :
    g1 * d1 * (g2 * d2) < 0 ↔ (-g1 / d1) * (-g2 / d2) < 0 := by
  have hd : 0 < (d1 * d1) * (d2 * d2) := mul_pos (mul_self_pos.2 h1) (mul_self_pos.2 h2)
  have e : (-g1 / d1) * (-g2 / d2) = (g1 * d1 * (g2 * d2)) / ((d1 * d1) * (d2 * d2)) := by field_simp
  rw [e, div_neg_iff_of_pos_right' hd]
where
  div_neg_iff_of_pos_right' {a b : ℚ} (hb : 0 < b) : a / b < 0 ↔ a < 0 := by
    constructor
    · intro h
      by_contra hh
      have := div_nonneg (not_lt.1 hh) (le_of_lt hb)
      linarith
    · intro h
      exact div_neg_of_neg_of_pos h hb

theorem cond_iff {g1 d1 g2 d2 : ℚ} (h1 : d1 ≠ 0) (h2 : d2 ≠ 0) :
    ((g1 * d1 ≤ 0 ∧ g1 * d1 ≥ -(d1 * d1)) ∨ (g2 * d2 ≤ 0 ∧ g2 * d2 ≥ -(d2 * d2)) ∨ g1 * d1 * (g2 * d2) < 0) ↔
      Cond (-g1 / d1) (-g2 / d2) := by
  unfold Cond
  rw [gama_range h1, gama_range h2, gama_prod h1 h2]

theorem legalBool {w d : ℚ} : (decide (w * d ≥ 0) && (decide (w * d ≤ d * d) && decide (d ≠ 0))) = true ↔ Legal w d := by
  simp [Legal, and_assoc]

/-- The planar test, in terms of crossing parameters. -/
theorem test2D_iff : test2D p10 p11 p20 p21 r0 r1 t0 t1 = true ↔
    (Legal (r0 * t1 - t0 * r1) (p10 * t1 - t0 * p11) ∧ Legal (r0 * t1 - t0 * r1) (p20 * t1 - t0 * p21) ∧
      Cond (-(p10 * r1 - r0 * p11) / (p10 * t1 - t0 * p11)) (-(p20 * r1 - r0 * p21) / (p20 * t1 - t0 * p21))) ∨
    (Legal (r0 * t1 - t0 * r1) (p10 * t1 - t0 * p11) ∧ ¬ Legal (r0 * t1 - t0 * r1) (p20 * t1 - t0 * p21) ∧
      Cond (-(p10 * r1 - r0 * p11) / (p10 * t1 - t0 * p11))
        (-((p20 - p10) * (r1 - p11) - (r0 - p10) * (p21 - p11)) / ((p20 * t1 - t0 * p21) - (p10 * t1 - t0 * p11)))) ∨
    (¬ Legal (r0 * t1 - t0 * r1) (p10 * t1 - t0 * p11) ∧ Legal (r0 * t1 - t0 * r1) (p20 * t1 - t0 * p21) ∧
      Cond (-(p20 * r1 - r0 * p21) / (p20 * t1 - t0 * p21))
        (-((p20 - p10) * (r1 - p11) - (r0 - p10) * (p21 - p11)) / ((p20 * t1 - t0 * p21) - (p10 * t1 - t0 * p11)))) := by
  unfold test2D
  simp only
  by_cases h1 : Legal (r0 * t1 - t0 * r1) (p10 * t1 - t0 * p11)
  · rw [if_pos (legalBool.2 h1)]
    by_cases h2 : Legal (r0 * t1 - t0 * r1) (p20 * t1 - t0 * p21)
    · rw [if_pos (legalBool.2 h2), decide_eq_true_eq, cond_iff h1.2.2 h2.2.2]
      simp [h1, h2]
    · rw [if_neg (fun h => h2 (legalBool.1 h)), decide_eq_true_eq, cond_iff h1.2.2 (legal_third h1 h2).1]
      simp [h1, h2]
  · rw [if_neg (fun h => h1 (legalBool.1 h))]
    by_cases h2 : Legal (r0 * t1 - t0 * r1) (p20 * t1 - t0 * p21)
    · rw [if_pos (legalBool.2 h2), decide_eq_true_eq, cond_iff h2.2.2 (legal_third' h1 h2).1]
      simp [h1, h2]
    · rw [if_neg (fun h => h2 (legalBool.1 h))]
      simp [h1, h2]

/-- The planar test answers true only if the segment meets the triangle. -/
theorem test2D_sound (h : test2D p10 p11 p20 p21 r0 r1 t0 t1 = true) :
    ∃ g x y, 0 ≤ g ∧ g ≤ 1 ∧ Simplex x y ∧ Pt2 p10 p11 p20 p21 r0 r1 t0 t1 g x y := by
  rcases test2D_iff.1 h with ⟨l1, l2, c⟩ | ⟨l1, l2, c⟩ | ⟨l1, l2, c⟩
  · obtain ⟨a, b⟩ := legal_param l1
    obtain ⟨a', b'⟩ := legal_param l2
    exact chord_fwd (edge1_pt l1.2.2) ⟨a, le_refl _, by linarith⟩ (edge2_pt l2.2.2) ⟨le_refl _, a', by linarith⟩ c
  · obtain ⟨a, b⟩ := legal_param l1
    obtain ⟨x, y, z⟩ := legal_third l1 l2
    exact chord_fwd (edge1_pt l1.2.2) ⟨a, le_refl _, by linarith⟩ (edge3_pt x) ⟨by linarith, y, by linarith⟩ c
  · obtain ⟨a', b'⟩ := legal_param l2
    obtain ⟨x, y, z⟩ := legal_third' l1 l2
    exact chord_fwd (edge2_pt l2.2.2) ⟨le_refl _, a', by linarith⟩ (edge3_pt x) ⟨by linarith, y, by linarith⟩ c

/-- A parameter between two others. -/
theorem cond_of_between {ga gb l : ℚ} (h0 : 0 ≤ l) (h1 : l ≤ 1) (hg0 : 0 ≤ (1 - l) * ga + l * gb)
    (hg1 : (1 - l) * ga + l * gb ≤ 1) : Cond ga gb := by
  have h1l : 0 ≤ 1 - l := by linarith
  by_contra hc
  unfold Cond at hc
  rw [not_or, not_or, not_and_or, not_and_or, not_le, not_le, not_le, not_le, not_lt] at hc
  obtain ⟨ha, hb, hab⟩ := hc
  rcases ha with ha | ha <;> rcases hb with hb | hb
  · -- both negative
    have : (1 - l) * ga + l * gb < 0 := by
      rcases eq_or_lt_of_le h0 with h | h
      · rw [← h]; linarith
      · nlinarith
    linarith
  · have := mul_neg_of_neg_of_pos ha (by linarith : (0:ℚ) < gb); linarith
  · have := mul_neg_of_pos_of_neg (by linarith : (0:ℚ) < ga) hb; linarith
  · have : 1 < (1 - l) * ga + l * gb := by
      rcases eq_or_lt_of_le h0 with h | h
      · rw [← h]; linarith
      · nlinarith
    linarith

/-- Two points of the line with the same coefficients have the same parameter. -/
theorem pt2_inj {g g' x y : ℚ} (ht : ¬ (t0 = 0 ∧ t1 = 0)) (h : Pt2 p10 p11 p20 p21 r0 r1 t0 t1 g x y)
    (h' : Pt2 p10 p11 p20 p21 r0 r1 t0 t1 g' x y) : g = g' := by
  have e0 : (g - g') * t0 = 0 := by linear_combination h.1 - h'.1
  have e1 : (g - g') * t1 = 0 := by linear_combination h.2 - h'.2
  rcases mul_eq_zero.1 e0 with e | e
  · linarith
  · rcases mul_eq_zero.1 e1 with e' | e'
    · linarith
    · exact absurd ⟨e, e'⟩ ht

/-- Convex combinations of points of the line. -/
theorem pt2_comb {ga xa ya gb xb yb l : ℚ} (ha : Pt2 p10 p11 p20 p21 r0 r1 t0 t1 ga xa ya)
    (hb : Pt2 p10 p11 p20 p21 r0 r1 t0 t1 gb xb yb) :
    Pt2 p10 p11 p20 p21 r0 r1 t0 t1 ((1 - l) * ga + l * gb) ((1 - l) * xa + l * xb) ((1 - l) * ya + l * yb) := by
  constructor
  · linear_combination (1 - l) * ha.1 + l * hb.1
  · linear_combination (1 - l) * ha.2 + l * hb.2

/-- Coefficients in terms of heights: for a point of the triangle at height `d`, not at the height of the corner:
which edges are met and where between the crossings the point is. -/
theorem chord_coeffs {d q1 q2 x y : ℚ} (hd : d ≠ 0) (hs : Simplex x y) (h : x * q1 + y * q2 = d) :
    (Legal d q1 ∧ Legal d q2 ∧ ∃ l, 0 ≤ l ∧ l ≤ 1 ∧ x = (1 - l) * (d / q1) ∧ y = l * (d / q2)) ∨
    (Legal d q1 ∧ ¬ Legal d q2 ∧ ∃ l, 0 ≤ l ∧ l ≤ 1 ∧ x = (1 - l) * (d / q1) + l * (1 - (d - q1) / (q2 - q1)) ∧
      y = l * ((d - q1) / (q2 - q1))) ∨
    (¬ Legal d q1 ∧ Legal d q2 ∧ ∃ l, 0 ≤ l ∧ l ≤ 1 ∧ x = l * (1 - (d - q1) / (q2 - q1)) ∧
      y = (1 - l) * (d / q2) + l * ((d - q1) / (q2 - q1))) := by
  -- it is enough to treat positive heights
  have pos : ∀ d q1 q2 x y : ℚ, 0 < d → Simplex x y → x * q1 + y * q2 = d →
      (Legal d q1 ∧ Legal d q2 ∧ ∃ l, 0 ≤ l ∧ l ≤ 1 ∧ x = (1 - l) * (d / q1) ∧ y = l * (d / q2)) ∨
      (Legal d q1 ∧ ¬ Legal d q2 ∧ ∃ l, 0 ≤ l ∧ l ≤ 1 ∧ x = (1 - l) * (d / q1) + l * (1 - (d - q1) / (q2 - q1)) ∧
        y = l * ((d - q1) / (q2 - q1))) ∨
      (¬ Legal d q1 ∧ Legal d q2 ∧ ∃ l, 0 ≤ l ∧ l ≤ 1 ∧ x = l * (1 - (d - q1) / (q2 - q1)) ∧
        y = (1 - l) * (d / q2) + l * ((d - q1) / (q2 - q1))) := by
    intro d q1 q2 x y hd ⟨hx, hy, hxy⟩ h
    have leg : ∀ q, Legal d q ↔ d ≤ q := by
      intro q
      constructor
      · rintro ⟨a, b, c⟩
        have hq : 0 < q := by
          rcases lt_trichotomy q 0 with h | h | h
          · have := mul_neg_of_pos_of_neg hd h; linarith
          · exact absurd h c
          · exact h
        exact le_of_mul_le_mul_right b hq
      · intro hq
        have : 0 < q := by linarith
        exact ⟨by positivity, mul_le_mul_of_nonneg_right hq (le_of_lt this), ne_of_gt this⟩
    rw [leg, leg]
    by_cases h1 : d ≤ q1
    · have hq1 : 0 < q1 := by linarith
      by_cases h2 : d ≤ q2
      · left
        have hq2 : 0 < q2 := by linarith
        refine ⟨h1, h2, y * q2 / d, by positivity, ?_, ?_, ?_⟩
        · rw [div_le_one hd]; nlinarith
        · field_simp; linarith
        · field_simp
      · right; left
        have h2' := not_le.1 h2
        have hlt : q2 - q1 < 0 := by linarith
        have hlt' : 0 < q1 - q2 := by linarith
        by_cases hq : q1 = d
        · -- the line passes through the first corner, so the point is that corner
          have hy0 : y = 0 := by
            have : y * (q1 - q2) ≤ 0 := by nlinarith
            by_contra hne
            have := mul_pos (lt_of_le_of_ne hy (Ne.symm hne)) hlt'
            linarith
          have hx1 : x = 1 := by
            rw [hy0, hq] at h
            have : x * d = d := by linarith
            exact mul_right_cancel₀ (ne_of_gt hd) (by linarith)
          refine ⟨h1, h2, 0, le_refl _, by norm_num, ?_, ?_⟩
          · rw [hx1, hq, div_self (ne_of_gt hd)]; ring
          · rw [hy0]; ring
        · have hne : d - q1 ≠ 0 := fun hh => hq (by linarith)
          have hneg : d - q1 < 0 := lt_of_le_of_ne (by linarith) hne
          have hl : y * (q2 - q1) / (d - q1) = y * (q1 - q2) / (q1 - d) := by
            rw [div_eq_div_iff hne (by intro hh; apply hne; linarith)]; ring
          have hp : 0 < q1 - d := by linarith
          refine ⟨h1, h2, y * (q2 - q1) / (d - q1), ?_, ?_, ?_, ?_⟩
          · rw [hl]; positivity
          · rw [hl, div_le_one hp]; nlinarith
          · have hn : q2 - q1 ≠ 0 := ne_of_lt hlt
            have hx' : x = (d - y * q2) / q1 := by field_simp; linarith
            rw [hx']
            field_simp
            ring
          · have hn : q2 - q1 ≠ 0 := ne_of_lt hlt
            field_simp
    · have h1' := not_le.1 h1
      have h2 : d ≤ q2 := by
        by_contra hh
        have hh := not_le.1 hh
        rcases eq_or_lt_of_le hx with hx0 | hx0
        · rw [← hx0] at h hxy
          have : y * q2 = d := by linarith
          by_cases hq : q2 ≤ 0
          · have := mul_nonpos_of_nonneg_of_nonpos hy hq
            linarith
          · have := mul_le_mul_of_nonneg_right (by linarith : y ≤ 1) (le_of_lt (not_le.1 hq))
            linarith
        · nlinarith
      have hq2 : 0 < q2 := by linarith
      have hlt' : 0 < q2 - q1 := by linarith
      right; right
      by_cases hq : q2 = d
      · have hx0 : x = 0 := by
          have : x * (q2 - q1) ≤ 0 := by nlinarith
          by_contra hne
          have := mul_pos (lt_of_le_of_ne hx (Ne.symm hne)) hlt'
          linarith
        have hy1 : y = 1 := by
          rw [hx0, hq] at h
          have : y * d = d := by linarith
          exact mul_right_cancel₀ (ne_of_gt hd) (by linarith)
        refine ⟨h1, h2, 0, le_refl _, by norm_num, ?_, ?_⟩
        · rw [hx0]; ring
        · rw [hy1, hq, div_self (ne_of_gt hd)]; ring
      · have hp : 0 < q2 - d := lt_of_le_of_ne (by linarith) (fun hh => hq (by linarith))
        have hn : q2 - q1 ≠ 0 := ne_of_gt hlt'
        have hn2 : q2 - d ≠ 0 := ne_of_gt hp
        have e1 : 1 - (d - q1) / (q2 - q1) = (q2 - d) / (q2 - q1) := by field_simp; ring
        refine ⟨h1, h2, x * (q2 - q1) / (q2 - d), by positivity, ?_, ?_, ?_⟩
        · rw [div_le_one hp]; nlinarith
        · rw [e1]; field_simp
        · have hy' : y = (d - x * q1) / q2 := by field_simp; linarith
          rw [hy']
          field_simp
          ring
  rcases lt_or_gt_of_ne hd with hneg | hp
  · have hl : ∀ q, Legal (-d) (-q) ↔ Legal d q := by
      intro q; unfold Legal; simp
    have h3 : ∀ a b : ℚ, (-a) / (-b) = a / b := fun a b => neg_div_neg_eq a b
    have e3 : (-d - -q1) / (-q2 - -q1) = (d - q1) / (q2 - q1) := by
      rw [← h3 (d - q1)]; congr 1 <;> ring
    have := pos (-d) (-q1) (-q2) x y (by linarith) hs (by linarith)
    rw [hl, hl, h3, h3, e3] at this
    exact this
  · exact pos d q1 q2 x y hp hs h

/-- The planar test answers true if the segment meets the triangle and its line misses the corner `0`. -/
theorem test2D_complete (hw : r0 * t1 - t0 * r1 ≠ 0) {g x y : ℚ} (hg0 : 0 ≤ g) (hg1 : g ≤ 1) (hs : Simplex x y)
    (h : Pt2 p10 p11 p20 p21 r0 r1 t0 t1 g x y) : test2D p10 p11 p20 p21 r0 r1 t0 t1 = true := by
  have ht : ¬ (t0 = 0 ∧ t1 = 0) := by
    rintro ⟨a, b⟩; rw [a, b] at hw; simp at hw
  have hh : x * (p10 * t1 - t0 * p11) + y * (p20 * t1 - t0 * p21) = r0 * t1 - t0 * r1 := by
    linear_combination (-t1) * h.1 + t0 * h.2
  rw [test2D_iff]
  rcases chord_coeffs hw hs hh with ⟨l1, l2, l, a, b, ex, ey⟩ | ⟨l1, l2, l, a, b, ex, ey⟩ | ⟨l1, l2, l, a, b, ex, ey⟩
  · left
    refine ⟨l1, l2, ?_⟩
    have hp := pt2_comb (l := l) (edge1_pt (p20 := p20) (p21 := p21) (r0 := r0) (r1 := r1) l1.2.2)
      (edge2_pt (p10 := p10) (p11 := p11) (r0 := r0) (r1 := r1) l2.2.2)
    rw [mul_zero, add_zero, mul_zero, zero_add, ← ex, ← ey] at hp
    have := pt2_inj ht h hp
    exact cond_of_between a b (by rw [← this]; exact hg0) (by rw [← this]; exact hg1)
  · right; left
    refine ⟨l1, l2, ?_⟩
    have hp := pt2_comb (l := l) (edge1_pt (p20 := p20) (p21 := p21) (r0 := r0) (r1 := r1) l1.2.2)
      (edge3_pt (p10 := p10) (p11 := p11) (p20 := p20) (p21 := p21) (r0 := r0) (r1 := r1) (legal_third l1 l2).1)
    rw [mul_zero, zero_add, ← ex, ← ey] at hp
    have := pt2_inj ht h hp
    exact cond_of_between a b (by rw [← this]; exact hg0) (by rw [← this]; exact hg1)
  · right; right
    refine ⟨l1, l2, ?_⟩
    have hp := pt2_comb (l := l) (edge2_pt (p10 := p10) (p11 := p11) (r0 := r0) (r1 := r1) l2.2.2)
      (edge3_pt (p10 := p10) (p11 := p11) (p20 := p20) (p21 := p21) (r0 := r0) (r1 := r1) (legal_third' l1 l2).1)
    rw [mul_zero, zero_add, ← ex, ← ey] at hp
    have := pt2_inj ht h hp
    exact cond_of_between a b (by rw [← this]; exact hg0) (by rw [← this]; exact hg1)

end
end TDP.Kernels
