import Verif.Kernels.TriExact
/-!
# C37, C38 in terms of the numbers in the arrays

The theorems of `Kernels.Props` and `Kernels.TriExact` speak about `ptAt`, the model's way of reading a point. Here the arrays are described
number by number.
-/
namespace TDP.Kernels
open TDP.Boxes

/-- The first `n` segments of an array of numbers: the two ends of segment `i` are the numbers `6i, 6i+1, 6i+2` and `6i+3, 6i+4, 6i+5`. -/
def HoldsSegs (d : Nat → ℚ) (n : Nat) (a b : Nat → Pt ℚ) : Prop :=
  ∀ i < n, ∀ c : Fin 3, d (6 * i + c.val) = a i c ∧ d (6 * i + 3 + c.val) = b i c

/-- The first `n` triangles of an array of numbers: the first corner of triangle `i` and the way from there to the two others. -/
def HoldsTris (d : Nat → ℚ) (n : Nat) (C P Q : Nat → Pt ℚ) : Prop :=
  ∀ i < n, ∀ c : Fin 3, d (9 * i + c.val) = C i c ∧ d (9 * i + 3 + c.val) = P i c ∧ d (9 * i + 6 + c.val) = Q i c

theorem ptAt_eq {d : Nat → ℚ} {p : Nat} {v : Pt ℚ} (h : ∀ c : Fin 3, d (p + c.val) = v c) : ptAt d p = v := by
  funext c
  have := h c
  fin_cases c <;> exact this

/-- The way from `a` to `b`. -/
def way (a b : Pt ℚ) : Pt ℚ := fun c => b c - a c

/-- The squared length of the way from `a` to `b`. -/
def sqLen (a b : Pt ℚ) : ℚ := (b 0 - a 0) ^ 2 + (b 1 - a 1) ^ 2 + (b 2 - a 2) ^ 2

theorem vsub_way (a b : Pt ℚ) : vsub b a = way a b := by
  funext c
  fin_cases c <;> rfl

theorem vdot_way (a b : Pt ℚ) : vdot (way a b) (way a b) = sqLen a b := by
  unfold vdot way sqLen
  ring

theorem HoldsSegs.pair {d1 d2 : Nat → ℚ} {n1 n2 : Nat} {a1 b1 a2 b2 : Nat → Pt ℚ} (h1 : HoldsSegs d1 n1 a1 b1) (h2 : HoldsSegs d2 n2 a2 b2)
    {i j : Nat} (hi : i < n1) (hj : j < n2) :
    segPair d1 d2 i j =
      segDist (a1 i) (a2 j) (way (a1 i) (b1 i)) (way (a2 j) (b2 j)) (sqLen (a1 i) (b1 i)) (sqLen (a2 j) (b2 j)) := by
  unfold segPair
  have e1 : ptAt d1 (i * 6) = a1 i := ptAt_eq fun c => by rw [Nat.mul_comm]; exact (h1 i hi c).1
  have e2 : ptAt d1 (i * 6 + 3) = b1 i := ptAt_eq fun c => by rw [Nat.mul_comm]; exact (h1 i hi c).2
  have e3 : ptAt d2 (j * 6) = a2 j := ptAt_eq fun c => by rw [Nat.mul_comm]; exact (h2 j hj c).1
  have e4 : ptAt d2 (j * 6 + 3) = b2 j := ptAt_eq fun c => by rw [Nat.mul_comm]; exact (h2 j hj c).2
  simp only [e1, e2, e3, e4, vsub_way, vdot_way]

/-- **C37.** For arrays holding up to 10000 segments each, the result is the smallest of the results of `SegDist` for all pairs of segments,
and infinite if there are none. -/
theorem C37_arrays (d1 d2 : Nat → ℚ) (n1 n2 : Nat) (a1 b1 a2 b2 : Nat → Pt ℚ) (h1 : HoldsSegs d1 n1 a1 b1) (h2 : HoldsSegs d2 n2 a2 b2)
    (l1 : n1 ≤ 10000) (l2 : n2 ≤ 10000) :
    (∀ i < n1, ∀ j < n2, segDistSingle d1 d2 n1 n2 ≤
      segDist (a1 i) (a2 j) (way (a1 i) (b1 i)) (way (a2 j) (b2 j)) (sqLen (a1 i) (b1 i)) (sqLen (a2 j) (b2 j))) ∧
    (segDistSingle d1 d2 n1 n2 = ⊤ ∨ ∃ i < n1, ∃ j < n2, segDistSingle d1 d2 n1 n2 =
      segDist (a1 i) (a2 j) (way (a1 i) (b1 i)) (way (a2 j) (b2 j)) (sqLen (a1 i) (b1 i)) (sqLen (a2 j) (b2 j))) ∧
    ((n1 = 0 ∨ n2 = 0) → segDistSingle d1 d2 n1 n2 = ⊤) := by
  obtain ⟨x, y, z⟩ := C37_minimum d1 d2 n1 n2 l1 l2
  refine ⟨fun i hi j hj => by rw [← h1.pair h2 hi hj]; exact x i hi j hj, ?_, z⟩
  rcases y with y | ⟨i, hi, j, hj, y⟩
  · exact .inl y
  · exact .inr ⟨i, hi, j, hj, by rw [← h1.pair h2 hi hj]; exact y⟩

/-- The point of the segment from `a` to `b` at `s`. -/
def along (a b : Pt ℚ) (s : ℚ) : Pt ℚ := fun c => a c + s * (b c - a c)

/-- **C37 (never too small).** If none of the segments is a point, the result is the squared distance of a point of a segment of the first
array and a point of a segment of the second. -/
theorem C37_attained (d1 d2 : Nat → ℚ) (n1 n2 : Nat) (a1 b1 a2 b2 : Nat → Pt ℚ) (h1 : HoldsSegs d1 n1 a1 b1) (h2 : HoldsSegs d2 n2 a2 b2)
    (l1 : n1 ≤ 10000) (l2 : n2 ≤ 10000) (p1 : 0 < n1) (p2 : 0 < n2) (g1 : ∀ i < n1, a1 i ≠ b1 i) (g2 : ∀ j < n2, a2 j ≠ b2 j) :
    ∃ i < n1, ∃ j < n2, ∃ s v : ℚ, 0 ≤ s ∧ s ≤ 1 ∧ 0 ≤ v ∧ v ≤ 1 ∧
      segDistSingle d1 d2 n1 n2 = (sqLen (along (a1 i) (b1 i) s) (along (a2 j) (b2 j) v) : ℚ) := by
  have hz : ∀ a b : Pt ℚ, a ≠ b → sqLen a b ≠ 0 := by
    intro a b hab h
    apply hab
    unfold sqLen at h
    have e0 := sq_nonneg (b 0 - a 0)
    have e1 := sq_nonneg (b 1 - a 1)
    have e2 := sq_nonneg (b 2 - a 2)
    have f0 : (b 0 - a 0) ^ 2 = 0 := by linarith
    have f1 : (b 1 - a 1) ^ 2 = 0 := by linarith
    have f2 : (b 2 - a 2) ^ 2 = 0 := by linarith
    funext c
    fin_cases c
    · exact (sub_eq_zero.1 (pow_eq_zero_iff (two_ne_zero) |>.1 f0)).symm
    · exact (sub_eq_zero.1 (pow_eq_zero_iff (two_ne_zero) |>.1 f1)).symm
    · exact (sub_eq_zero.1 (pow_eq_zero_iff (two_ne_zero) |>.1 f2)).symm
  have pt : ∀ i < n1, ∀ j < n2, ∃ s v : ℚ, 0 ≤ s ∧ s ≤ 1 ∧ 0 ≤ v ∧ v ≤ 1 ∧
      segDist (a1 i) (a2 j) (way (a1 i) (b1 i)) (way (a2 j) (b2 j)) (sqLen (a1 i) (b1 i)) (sqLen (a2 j) (b2 j)) =
        (sqLen (along (a1 i) (b1 i) s) (along (a2 j) (b2 j) v) : ℚ) := by
    intro i hi j hj
    obtain ⟨s, v, e1, e2, e3, e4, e⟩ := C36_attained_partial (a1 i) (a2 j) (way (a1 i) (b1 i)) (way (a2 j) (b2 j))
      (by rw [vdot_way]; exact hz _ _ (g1 i hi)) (by rw [vdot_way]; exact hz _ _ (g2 j hj))
    refine ⟨s, v, e1, e2, e3, e4, ?_⟩
    rw [vdot_way, vdot_way] at e
    rw [e]
    congr 1
    unfold dist2At sqLen along way
    ring
  obtain ⟨x, y, -⟩ := C37_arrays d1 d2 n1 n2 a1 b1 a2 b2 h1 h2 l1 l2
  rcases y with y | ⟨i, hi, j, hj, y⟩
  · obtain ⟨s, v, -, -, -, -, e⟩ := pt 0 p1 0 p2
    have := x 0 p1 0 p2
    rw [y, e] at this
    exact absurd this (by simp)
  · obtain ⟨s, v, e1, e2, e3, e4, e⟩ := pt i hi j hj
    exact ⟨i, hi, j, hj, s, v, e1, e2, e3, e4, y.trans e⟩

/-- Arrays with the segments from (0,0,0) to (1,0,0) and from (0,1,0) to (0,1,1). -/
example : ∃ d1 d2 : Nat → ℚ, HoldsSegs d1 1 (fun _ => pt3 0 0 0) (fun _ => pt3 1 0 0) ∧
    HoldsSegs d2 1 (fun _ => pt3 0 1 0) (fun _ => pt3 0 1 1) ∧ segDistSingle d1 d2 1 1 = ((1 : ℚ) : WithTop ℚ) := by
  refine ⟨fun k => if k = 3 then 1 else 0, fun k => if k = 1 ∨ k = 4 ∨ k = 5 then 1 else 0, ?_, ?_, by decide +kernel⟩
  · intro i hi c
    obtain rfl : i = 0 := by omega
    fin_cases c <;> exact ⟨by decide +kernel, by decide +kernel⟩
  · intro i hi c
    obtain rfl : i = 0 := by omega
    fin_cases c <;> exact ⟨by decide +kernel, by decide +kernel⟩

/-- **C38.** For arrays holding triangles none of which is degenerate: the answer is yes exactly if some triangle of the first and some
triangle of the second have a point in common and are not one of the missed pairs. -/
theorem C38_arrays (d1 d2 : Nat → ℚ) (n1 n2 : Nat) (C P Q D R S : Nat → Pt ℚ) (h1 : HoldsTris d1 n1 C P Q) (h2 : HoldsTris d2 n2 D R S)
    (g1 : ∀ i < n1, vcross (P i) (Q i) ≠ 0) (g2 : ∀ j < n2, vcross (R j) (S j) ≠ 0) :
    triIntSingle d1 d2 n1 n2 = true ↔ ∃ i < n1, ∃ j < n2,
      TriMeet (C i) (P i) (Q i) (D j) (R j) (S j) ∧ ¬ Missed (C i) (P i) (Q i) (D j) (R j) (S j) := by
  have e1 : ∀ i < n1, ptAt d1 (9 * i) = C i ∧ ptAt d1 (9 * i + 3) = P i ∧ ptAt d1 (9 * i + 6) = Q i := fun i hi =>
    ⟨ptAt_eq fun c => (h1 i hi c).1, ptAt_eq fun c => (h1 i hi c).2.1, ptAt_eq fun c => (h1 i hi c).2.2⟩
  have e2 : ∀ j < n2, ptAt d2 (9 * j) = D j ∧ ptAt d2 (9 * j + 3) = R j ∧ ptAt d2 (9 * j + 6) = S j := fun j hj =>
    ⟨ptAt_eq fun c => (h2 j hj c).1, ptAt_eq fun c => (h2 j hj c).2.1, ptAt_eq fun c => (h2 j hj c).2.2⟩
  rw [C38_mesh_characterisation d1 d2 n1 n2 (fun i hi => by rw [(e1 i hi).2.1, (e1 i hi).2.2]; exact g1 i hi)
    (fun j hj => by rw [(e2 j hj).2.1, (e2 j hj).2.2]; exact g2 j hj)]
  constructor
  · rintro ⟨i, hi, j, hj, h, h'⟩
    unfold arrMeet at h
    rw [(e1 i hi).1, (e1 i hi).2.1, (e1 i hi).2.2, (e2 j hj).1, (e2 j hj).2.1, (e2 j hj).2.2] at h h'
    exact ⟨i, hi, j, hj, h, h'⟩
  · rintro ⟨i, hi, j, hj, h, h'⟩
    refine ⟨i, hi, j, hj, ?_⟩
    unfold arrMeet
    rw [(e1 i hi).1, (e1 i hi).2.1, (e1 i hi).2.2, (e2 j hj).1, (e2 j hj).2.1, (e2 j hj).2.2]
    exact ⟨h, h'⟩

/-- Arrays with a triangle each. -/
example : ∃ d1 d2 : Nat → ℚ, HoldsTris d1 1 (fun _ => pt3 0 0 0) (fun _ => pt3 4 0 0) (fun _ => pt3 0 4 0) ∧
    HoldsTris d2 1 (fun _ => pt3 1 1 (-1)) (fun _ => pt3 0 0 3) (fun _ => pt3 1 0 3) ∧ triIntSingle d1 d2 1 1 = true := by
  refine ⟨fun k => if k = 3 ∨ k = 7 then 4 else 0,
    fun k => if k = 0 ∨ k = 1 ∨ k = 6 then 1 else if k = 2 then -1 else if k = 5 ∨ k = 8 then 3 else 0, ?_, ?_, by decide +kernel⟩
  · intro i hi c
    obtain rfl : i = 0 := by omega
    fin_cases c <;> exact ⟨by decide +kernel, by decide +kernel, by decide +kernel⟩
  · intro i hi c
    obtain rfl : i = 0 := by omega
    fin_cases c <;> exact ⟨by decide +kernel, by decide +kernel, by decide +kernel⟩

end TDP.Kernels
