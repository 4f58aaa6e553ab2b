import Verif.TriDist.Model
import Mathlib.Tactic.Ring
import Mathlib.Tactic.Linarith
import Mathlib.Tactic.LinearCombination
import Mathlib.Tactic.FieldSimp
import Mathlib.Tactic.FinCases
import Mathlib.Data.Finset.Max
import Mathlib.Data.Fintype.Basic
/-!
# Points of triangles: specification and geometry for C100
-/
set_option linter.unusedSectionVars false
namespace TDP.TriDist
open TDP.Boxes

variable {K : Type} [Field K] [LinearOrder K]

/-! ## Specification -/

/-- The square of the Euclidean distance of two points. -/
def d2 (x y : Pt K) : K := (y 0 - x 0) ^ 2 + (y 1 - x 1) ^ 2 + (y 2 - x 2) ^ 2

/-- Barycentric weights. -/
def IsWeights (w : Fin 3 → K) : Prop := (∀ i, 0 ≤ w i) ∧ w 0 + w 1 + w 2 = 1

/-- The point with weights `w`. -/
def comb (S : Tri K) (w : Fin 3 → K) : Pt K := w 0 • S 0 + w 1 • S 1 + w 2 • S 2

/-- `x` is a point of the (filled) triangle `S`. -/
def InTri (S : Tri K) (x : Pt K) : Prop := ∃ w, IsWeights w ∧ x = comb S w

/-- `m` is the square of the distance of the triangles `S` and `T`. -/
def IsTriDist2 (S T : Tri K) (m : K) : Prop :=
  (∃ x y, InTri S x ∧ InTri T y ∧ d2 x y = m) ∧ ∀ x y, InTri S x → InTri T y → m ≤ d2 x y

/-! ## Vectors -/

section
omit [LinearOrder K]

theorem d2_eq_dot (x y : Pt K) : d2 x y = dot (y - x) (y - x) := by
  simp only [d2, dot, Pi.sub_apply]; ring
theorem d2_comm (x y : Pt K) : d2 x y = d2 y x := by
  simp only [d2]; ring
theorem dist2_eq (x y : Pt K) : dist2 x y = d2 x y := by
  simp only [d2, dist2]; ring
theorem dot_comm (a b : Pt K) : dot a b = dot b a := by simp only [dot]; ring
theorem dot_add_left (a b c : Pt K) : dot (a + b) c = dot a c + dot b c := by simp only [dot, Pi.add_apply]; ring
theorem dot_sub_left (a b c : Pt K) : dot (a - b) c = dot a c - dot b c := by simp only [dot, Pi.sub_apply]; ring
theorem dot_smul_left (t : K) (a c : Pt K) : dot (t • a) c = t * dot a c := by
  simp only [dot, Pi.smul_apply, smul_eq_mul]; ring
theorem dot_add_right (a b c : Pt K) : dot c (a + b) = dot c a + dot c b := by simp only [dot, Pi.add_apply]; ring
theorem dot_sub_right (a b c : Pt K) : dot c (a - b) = dot c a - dot c b := by simp only [dot, Pi.sub_apply]; ring
theorem dot_smul_right (t : K) (a c : Pt K) : dot c (t • a) = t * dot c a := by
  simp only [dot, Pi.smul_apply, smul_eq_mul]; ring
theorem dot_zero_left (c : Pt K) : dot 0 c = 0 := by simp [dot]

theorem vec_ext {a b : Pt K} (h0 : a 0 = b 0) (h1 : a 1 = b 1) (h2 : a 2 = b 2) : a = b := by
  funext i; fin_cases i <;> assumption

@[simp] theorem cross_0 (a b : Pt K) : cross a b 0 = a 1 * b 2 - a 2 * b 1 := rfl
@[simp] theorem cross_1 (a b : Pt K) : cross a b 1 = a 2 * b 0 - a 0 * b 2 := rfl
@[simp] theorem cross_2 (a b : Pt K) : cross a b 2 = a 0 * b 1 - a 1 * b 0 := rfl

/-- `A × (T × A)`. -/
theorem triple (A T : Pt K) : cross A (cross T A) = dot A A • T - dot A T • A := by
  apply vec_ext <;> simp [dot] <;> ring

end

variable [IsStrictOrderedRing K]

theorem dot_self_nonneg (a : Pt K) : 0 ≤ dot a a := by
  simp only [dot]; nlinarith [mul_self_nonneg (a 0), mul_self_nonneg (a 1), mul_self_nonneg (a 2)]

theorem dot_self_eq_zero {a : Pt K} (h : dot a a = 0) : a = 0 := by
  simp only [dot] at h
  have h0 := mul_self_nonneg (a 0)
  have h1 := mul_self_nonneg (a 1)
  have h2 := mul_self_nonneg (a 2)
  apply vec_ext <;> simp only [Pi.zero_apply] <;> apply mul_self_eq_zero.1 <;> linarith

theorem d2_nonneg (x y : Pt K) : 0 ≤ d2 x y := by rw [d2_eq_dot]; exact dot_self_nonneg _

theorem d2_eq_zero {x y : Pt K} (h : d2 x y = 0) : x = y := by
  rw [d2_eq_dot] at h
  exact (sub_eq_zero.1 (dot_self_eq_zero h)).symm

/-- Cauchy and Schwarz. -/
theorem cauchy (a b : Pt K) : dot a b ^ 2 ≤ dot a a * dot b b := by
  have : dot a a * dot b b - dot a b ^ 2 = dot (cross a b) (cross a b) := by
    simp only [dot, cross_0, cross_1, cross_2]; ring
  have := dot_self_nonneg (cross a b)
  linarith

/-- If moving from `x` towards `z` does not come nearer to `y`, then `z` is not in front of `x`. -/
theorem variation {x y z : Pt K} (h : ∀ r : K, 0 ≤ r → r ≤ 1 → d2 x y ≤ d2 (x + r • (z - x)) y) : dot (z - x) (y - x) ≤ 0 := by
  by_contra hc
  have hc := not_le.1 hc
  set D := dot (z - x) (y - x) with hD
  set N := dot (z - x) (z - x) with hN
  have hN0 : 0 ≤ N := dot_self_nonneg _
  have ex : ∀ r : K, d2 (x + r • (z - x)) y = d2 x y - 2 * r * D + r * r * N := by
    intro r
    rw [hD, hN]
    simp only [d2, dot, Pi.add_apply, Pi.sub_apply, Pi.smul_apply, smul_eq_mul]; ring
  by_cases hle : N ≤ D
  · have := h 1 zero_le_one le_rfl
    rw [ex] at this
    nlinarith
  · have hlt := not_le.1 hle
    have hNp : 0 < N := lt_trans hc hlt
    have := h (D / N) (le_of_lt (div_pos hc hNp)) ((div_le_one hNp).2 (le_of_lt hlt))
    rw [ex] at this
    have e : D / N * (D / N) * N = D / N * D := by field_simp
    rw [e] at this
    have : 0 < D / N * D := mul_pos (div_pos hc hNp) hc
    nlinarith

/-! ## Weights -/

theorem comb_line (S : Tri K) (w v : Fin 3 → K) (r : K) :
    comb S w + r • (comb S v - comb S w) = comb S (fun i => w i + r * (v i - w i)) := by
  apply vec_ext <;> simp [comb] <;> ring

theorem weights_line {w v : Fin 3 → K} (hw : IsWeights w) (hv : IsWeights v) {r : K} (h0 : 0 ≤ r) (h1 : r ≤ 1) :
    IsWeights (fun i => w i + r * (v i - w i)) := by
  refine ⟨fun i => ?_, ?_⟩
  · have := hw.1 i
    have := hv.1 i
    show 0 ≤ w i + r * (v i - w i)
    nlinarith [mul_nonneg h0 (hv.1 i), mul_nonneg (sub_nonneg.2 h1) (hw.1 i)]
  · have := hw.2
    have := hv.2
    show w 0 + r * (v 0 - w 0) + (w 1 + r * (v 1 - w 1)) + (w 2 + r * (v 2 - w 2)) = 1
    linear_combination (1 - r) * hw.2 + r * hv.2

theorem inTri_line {S : Tri K} {x y : Pt K} (hx : InTri S x) (hy : InTri S y) {r : K} (h0 : 0 ≤ r) (h1 : r ≤ 1) :
    InTri S (x + r • (y - x)) := by
  obtain ⟨w, hw, rfl⟩ := hx
  obtain ⟨v, hv, rfl⟩ := hy
  exact ⟨_, weights_line hw hv h0 h1, comb_line S w v r⟩

/-- The weights of a corner. -/
def corner (k : Fin 3) : Fin 3 → K := fun i => if i = k then 1 else 0

theorem corner_weights (k : Fin 3) : IsWeights (corner k : Fin 3 → K) := by
  constructor
  · intro i; unfold corner; split <;> norm_num
  · fin_cases k <;> simp [corner]

theorem comb_corner (S : Tri K) (k : Fin 3) : comb S (corner k) = S k := by
  fin_cases k <;> simp [comb, corner]

theorem inTri_corner (S : Tri K) (k : Fin 3) : InTri S (S k) := ⟨_, corner_weights k, (comb_corner S k).symm⟩

/-- `x` is a point of `S` that needs only two corners: a point of an edge. -/
def OnEdge (S : Tri K) (x : Pt K) : Prop := ∃ w, IsWeights w ∧ (∃ i, w i = 0) ∧ x = comb S w

theorem OnEdge.inTri {S : Tri K} {x : Pt K} (h : OnEdge S x) : InTri S x := by
  obtain ⟨w, h1, -, h2⟩ := h
  exact ⟨w, h1, h2⟩

/-- An edge point as the loops see it. -/
theorem OnEdge.param {S : Tri K} {x : Pt K} (h : OnEdge S x) : ∃ (i : Fin 3) (s : K), 0 ≤ s ∧ s ≤ 1 ∧ x = S i + s • side S i := by
  obtain ⟨w, ⟨hw, hs⟩, ⟨i, hi⟩, rfl⟩ := h
  have h0 := hw 0
  have h1 := hw 1
  have h2 := hw 2
  fin_cases i
  · have hi : w 0 = 0 := hi
    refine ⟨1, w 2, h2, by linarith, ?_⟩
    have e : w 1 = 1 - w 2 := by linarith
    apply vec_ext <;> simp [comb, side, hi, e, show (1 + 1 : Fin 3) = 2 from rfl] <;> ring
  · have hi : w 1 = 0 := hi
    refine ⟨2, w 0, h0, by linarith, ?_⟩
    have e : w 2 = 1 - w 0 := by linarith
    apply vec_ext <;> simp [comb, side, hi, e, show (2 + 1 : Fin 3) = 0 from rfl] <;> ring
  · have hi : w 2 = 0 := hi
    refine ⟨0, w 1, h1, by linarith, ?_⟩
    have e : w 0 = 1 - w 1 := by linarith
    apply vec_ext <;> simp [comb, side, hi, e, show (0 + 1 : Fin 3) = 1 from rfl] <;> ring

theorem onEdge_param (S : Tri K) (i : Fin 3) {s : K} (h0 : 0 ≤ s) (h1 : s ≤ 1) : OnEdge S (S i + s • side S i) := by
  refine ⟨fun k => if k = i then 1 - s else if k = i + 1 then s else 0, ⟨fun k => ?_, ?_⟩, ⟨i + 2, ?_⟩, ?_⟩
  · show 0 ≤ (if k = i then 1 - s else if k = i + 1 then s else 0)
    split
    · linarith
    · split
      · exact h0
      · exact le_refl _
  · fin_cases i <;> simp [show (1 + 1 : Fin 3) = 2 from rfl, show (2 + 1 : Fin 3) = 0 from rfl]
  · fin_cases i <;> simp
    all_goals intros; exact absurd ‹_› (by decide)
  · fin_cases i <;> apply vec_ext <;>
      simp [comb, side, show (1 + 1 : Fin 3) = 2 from rfl, show (2 + 1 : Fin 3) = 0 from rfl] <;> ring

/-- From non-negative weights towards numbers that are not all positive: the first boundary met. -/
theorem first_exit {w v : Fin 3 → K} (hw : ∀ i, 0 ≤ w i) (hv : ∃ i, v i ≤ 0) :
    ∃ r, 0 ≤ r ∧ r ≤ 1 ∧ (∀ i, 0 ≤ w i + r * (v i - w i)) ∧ ∃ i, w i + r * (v i - w i) = 0 := by
  obtain ⟨i0, hi0⟩ := hv
  have hne : (Finset.univ.filter (fun i : Fin 3 => v i ≤ 0)).Nonempty := ⟨i0, by simp [hi0]⟩
  obtain ⟨i, him, hmin⟩ := Finset.exists_min_image _ (fun i => w i / (w i - v i)) hne
  have hi : v i ≤ 0 := by simpa using him
  have hwi := hw i
  have hr0 : 0 ≤ w i / (w i - v i) := div_nonneg hwi (by linarith)
  have hr1 : w i / (w i - v i) ≤ 1 := div_le_one_of_le₀ (by linarith) (by linarith)
  refine ⟨w i / (w i - v i), hr0, hr1, fun j => ?_, i, ?_⟩
  · have hwj := hw j
    by_cases hj : v j ≤ 0
    · have hle := hmin j (by simp [hj])
      have hd : 0 ≤ w j - v j := by linarith
      have e : w j / (w j - v j) * (w j - v j) ≤ w j := by
        by_cases hz : w j - v j = 0
        · rw [hz, mul_zero]; exact hwj
        · rw [div_mul_cancel₀ _ hz]
      nlinarith [mul_le_mul_of_nonneg_right hle hd]
    · have hj := not_le.1 hj
      nlinarith [mul_nonneg hr0 (le_of_lt hj), mul_nonneg (sub_nonneg.2 hr1) hwj]
  · by_cases hz : w i - v i = 0
    · have h1 : w i = 0 := by linarith
      have h2 : v i = 0 := by linarith
      rw [h1, h2]; ring
    · field_simp
      ring

end TDP.TriDist
