import Verif.Measures.Surface
/-! # C92: the hypotheses are met -/
namespace TDP.Measures
open TDP.Codec TDP.Traversal

/-- A vector from its coordinates. -/
def vec (x y z : ℝ) : R3 := fun i => if i.val = 0 then x else if i.val = 1 then y else z

theorem vec0 (x y z : ℝ) : vec x y z 0 = x := rfl
theorem vec1 (x y z : ℝ) : vec x y z 1 = y := rfl
theorem vec2 (x y z : ℝ) : vec x y z 2 = z := rfl

/-- A unit square. -/
def square : List R3 := [vec 0 0 0, vec 1 0 0, vec 1 1 0, vec 0 1 0]

/-- A quadrilateral whose corners are alternately below and above a plane. -/
def saddle : List R3 := [vec 0 0 0, vec 1 0 1, vec 1 1 0, vec 0 1 1]

theorem loopSum4 {A : Type} [AddCommMonoid A] (f : R3 → R3 → A) (a b c d : R3) :
    loopSum f [a, b, c, d] = f a b + f b c + f c d + f d a := by
  unfold loopSum
  simp only [List.length_cons, List.length_nil]
  rw [Finset.sum_range_succ, Finset.sum_range_succ, Finset.sum_range_succ, Finset.sum_range_succ, Finset.sum_range_zero, zero_add]
  rfl

theorem side4 {a b c d x y : R3} (h : Side [a, b, c, d] x y) :
    (x = a ∧ y = b) ∨ (x = b ∧ y = c) ∨ (x = c ∧ y = d) ∨ (x = d ∧ y = a) := by
  obtain ⟨i, hi, hx, hy⟩ := h
  simp only [List.length_cons, List.length_nil] at hi
  have : i = 0 ∨ i = 1 ∨ i = 2 ∨ i = 3 := by omega
  rcases this with rfl | rfl | rfl | rfl
  · left; exact ⟨hx, hy⟩
  · right; left; exact ⟨hx, hy⟩
  · right; right; left; exact ⟨hx, hy⟩
  · right; right; right; exact ⟨hx, by simpa using hy⟩

theorem square_mean : mean square = vec (1 / 2) (1 / 2) 0 := by
  apply ext3 <;> simp [mean, square, vec0, vec1, vec2] <;> norm_num

theorem saddle_mean : mean saddle = vec (1 / 2) (1 / 2) (1 / 2) := by
  apply ext3 <;> simp [mean, saddle, vec0, vec1, vec2] <;> norm_num

/-- The square is flat, in order around its mean, circulated counterclockwise seen from above. -/
theorem square_flat : square ≠ [] ∧ vec 0 0 1 ≠ 0 ∧ InPlane (vec 0 0 1) 0 square ∧ Star (vec 0 0 1) square ∧
    0 < dot (vec 0 0 1) (area2 square) := by
  refine ⟨by simp [square], fun h => ?_, ?_, ?_, ?_⟩
  · have := congrFun h 2
    rw [vec2] at this
    simp at this
  · intro q hq
    simp only [square, List.mem_cons, List.not_mem_nil, or_false] at hq
    rcases hq with rfl | rfl | rfl | rfl <;> simp [dot, vec0, vec1, vec2]
  · intro a b hab
    rw [square_mean]
    rcases side4 hab with ⟨rfl, rfl⟩ | ⟨rfl, rfl⟩ | ⟨rfl, rfl⟩ | ⟨rfl, rfl⟩ <;>
      simp [dot, cross2, vec0, vec1, vec2] <;> norm_num
  · unfold area2 square
    rw [loopSum4]
    simp [dot, cross2, vec0, vec1, vec2]

/-- So its surface is 1, its normal the third axis, and the error of removing any vertex above it zero. -/
example (v : R3) : fanSurface (mean square) square = norm (area2 square) / 2 ∧ polygonNormal square = normalize (vec 0 0 1) ∧
    isPlanar square 0 = true ∧ removalError v square = 0 := by
  obtain ⟨h1, h2, h3, h4, h5⟩ := square_flat
  exact ⟨fan_eq h2 h1 h3 h4, (C92_normal_of_plane _ _ h2 _ h3).1 h5, (C92_planar square h1 0).2.mpr (Or.inr ⟨_, _, h2, h3⟩),
    (C93_counterexample v square h1).1 ⟨_, _, h2, h3, h4⟩⟩

theorem saddle_area : area2 saddle = vec 0 0 2 := by
  unfold area2 saddle
  rw [loopSum4]
  apply ext3 <;> simp [cross0, cross1, cross2, vec0, vec1, vec2] <;> norm_num

/-- The saddle is not flat, and its fan larger than its area vector. -/
theorem saddle_fan : area2 saddle ≠ 0 ∧ norm (area2 saddle) / 2 < ringArea saddle := by
  constructor
  · rw [saddle_area]
    intro h
    have := congrFun h 2
    rw [vec2] at this
    simp at this
  · rw [ringArea_eq, fanSurface_eq, saddle_mean, saddle_area]
    unfold saddle
    rw [loopSum4]
    have n0 : norm (vec 0 0 2) = 2 := by
      unfold norm
      have : dot (vec 0 0 2) (vec 0 0 2) = 2 * 2 := by simp [dot, vec0, vec1, vec2]
      rw [this, Real.sqrt_mul_self (by norm_num)]
    rw [n0]
    have key : ∀ x y : R3, dot (cross x y) (cross x y) = 1 / 2 → (7 / 10 : ℝ) < norm (cross x y) := by
      intro x y h
      unfold norm
      rw [h, Real.lt_sqrt (by norm_num)]
      norm_num
    have q1 := key (vec 0 0 0 - vec (1 / 2) (1 / 2) (1 / 2)) (vec 1 0 1 - vec (1 / 2) (1 / 2) (1 / 2)) (by
      simp only [dot, cross0, cross1, cross2, Pi.sub_apply, vec0, vec1, vec2]; norm_num)
    have q2 := key (vec 1 0 1 - vec (1 / 2) (1 / 2) (1 / 2)) (vec 1 1 0 - vec (1 / 2) (1 / 2) (1 / 2)) (by
      simp only [dot, cross0, cross1, cross2, Pi.sub_apply, vec0, vec1, vec2]; norm_num)
    have q3 := key (vec 1 1 0 - vec (1 / 2) (1 / 2) (1 / 2)) (vec 0 1 1 - vec (1 / 2) (1 / 2) (1 / 2)) (by
      simp only [dot, cross0, cross1, cross2, Pi.sub_apply, vec0, vec1, vec2]; norm_num)
    have q4 := key (vec 0 1 1 - vec (1 / 2) (1 / 2) (1 / 2)) (vec 0 0 0 - vec (1 / 2) (1 / 2) (1 / 2)) (by
      simp only [dot, cross0, cross1, cross2, Pi.sub_apply, vec0, vec1, vec2]; norm_num)
    linarith

/-- So the error of removing the vertex above it depends on where it is. -/
example (v : R3) : (∃ t, removalError (v + t) (moved t saddle) = 0) ∧ ∃ t, 0 < removalError (v + t) (moved t saddle) :=
  (C93_counterexample v saddle (by simp [saddle])).2 saddle_fan.1 saddle_fan.2

/-- The theorems about meshes speak of something: every facet of the octahedron, wherever its corners are. -/
example (p : Nat → R3) : (octahedron p).WF ∧ (0 : Nat) ∈ (octahedron p).darts := ⟨(octahedron_ok p).1, show (0 : Nat) ∈ Finset.range 24 by decide⟩

end TDP.Measures
