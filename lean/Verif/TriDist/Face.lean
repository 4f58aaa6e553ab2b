import Verif.TriDist.Geom
/-!
# The plane of a triangle, and descent from any pair of points to a pair of edges
-/
set_option linter.unusedSectionVars false
namespace TDP.TriDist
open TDP.Boxes

variable {K : Type} [Field K] [LinearOrder K] [IsStrictOrderedRing K]

/-- The normal `Sn`. -/
def nrm (U : Tri K) : Pt K := cross (side U 0) (side U 1)
/-- Its squared length `Snl`. -/
def len (U : Tri K) : K := dot (nrm U) (nrm U)
/-- The three numbers compared with 0 by the face test. -/
def g (U : Tri K) (i : Fin 3) (y : Pt K) : K := dot (y - U i) (cross (nrm U) (side U i))
/-- The projection length `Tp`. -/
def tp (U : Tri K) (y : Pt K) : K := dot (U 0 - y) (nrm U)

theorem side_0 (U : Tri K) : side U 0 = U 1 - U 0 := rfl
theorem side_1 (U : Tri K) : side U 1 = U 2 - U 1 := rfl
theorem side_2 (U : Tri K) : side U 2 = U 0 - U 2 := rfl

theorem g_sum (U : Tri K) (y : Pt K) : g U 0 y + g U 1 y + g U 2 y = len U := by
  simp only [g, len, nrm, side_0, side_1, side_2]
  obtain ⟨e, he⟩ : ∃ e, e = U 1 - U 0 := ⟨_, rfl⟩
  obtain ⟨f, hf⟩ : ∃ f, f = U 2 - U 1 := ⟨_, rfl⟩
  obtain ⟨z, hz⟩ : ∃ z, z = y - U 0 := ⟨_, rfl⟩
  have h1 : y - U 1 = z - e := by rw [hz, he]; abel
  have h2 : y - U 2 = z - e - f := by rw [hz, he, hf]; abel
  have h3 : U 0 - U 2 = -(e + f) := by rw [he, hf]; abel
  rw [h1, h2, h3, ← he, ← hf, ← hz]
  simp only [dot, cross_0, cross_1, cross_2, Pi.sub_apply, Pi.neg_apply, Pi.add_apply]
  ring

theorem key (U : Tri K) (y : Pt K) :
    len U • y = g U 1 y • U 0 + g U 2 y • U 1 + g U 0 y • U 2 - tp U y • nrm U := by
  have hs := g_sum U y
  have h : len U • (y - U 0) = g U 2 y • (U 1 - U 0) + g U 0 y • (U 2 - U 0) - tp U y • nrm U := by
    simp only [g, len, tp, nrm, side_0, side_1, side_2]
    obtain ⟨e, he⟩ : ∃ e, e = U 1 - U 0 := ⟨_, rfl⟩
    obtain ⟨f, hf⟩ : ∃ f, f = U 2 - U 1 := ⟨_, rfl⟩
    obtain ⟨z, hz⟩ : ∃ z, z = y - U 0 := ⟨_, rfl⟩
    have h2 : y - U 2 = z - e - f := by rw [hz, he, hf]; abel
    have h3 : U 0 - U 2 = -(e + f) := by rw [he, hf]; abel
    have h4 : U 2 - U 0 = e + f := by rw [he, hf]; abel
    have h5 : U 0 - y = -z := by rw [hz]; abel
    rw [h2, h3, h4, h5, ← he, ← hf, ← hz]
    apply vec_ext <;>
    simp only [dot, cross_0, cross_1, cross_2, Pi.sub_apply, Pi.neg_apply, Pi.add_apply, Pi.smul_apply, smul_eq_mul] <;>
    ring
  have e0 : len U • y = len U • (y - U 0) + len U • U 0 := by rw [← smul_add]; congr 1; abel
  rw [e0, h, ← hs]
  apply vec_ext <;> simp <;> ring

/-- The weights of the projection onto the plane of `U`. -/
def pw (U : Tri K) (y : Pt K) : Fin 3 → K := fun k => g U (k + 1) y / len U
/-- The projection onto the plane of `U`. -/
def proj (U : Tri K) (y : Pt K) : Pt K := comb U (pw U y)

theorem pw_sum {U : Tri K} (h : 0 < len U) (y : Pt K) : pw U y 0 + pw U y 1 + pw U y 2 = 1 := by
  show g U 1 y / len U + g U 2 y / len U + g U 0 y / len U = 1
  rw [← add_div, ← add_div, div_eq_one_iff_eq (ne_of_gt h), ← g_sum U y]; ring

theorem proj_eq {U : Tri K} (h : 0 < len U) (y : Pt K) : proj U y = y + (tp U y / len U) • nrm U := by
  have hk := key U y
  have hne := ne_of_gt h
  have c0 := congrFun hk 0
  have c1 := congrFun hk 1
  have c2 := congrFun hk 2
  simp only [Pi.sub_apply, Pi.add_apply, Pi.smul_apply, smul_eq_mul] at c0 c1 c2
  unfold proj comb pw
  apply vec_ext <;> simp only [Pi.add_apply, Pi.smul_apply, smul_eq_mul, show (0 + 1 : Fin 3) = 1 from rfl,
    show (1 + 1 : Fin 3) = 2 from rfl, show (2 + 1 : Fin 3) = 0 from rfl] <;> field_simp
  · linear_combination -c0
  · linear_combination -c1
  · linear_combination -c2

theorem tp_line (U : Tri K) (y z : Pt K) (r : K) : tp U (y + r • (z - y)) = tp U y + r * (tp U z - tp U y) := by
  simp only [tp, dot, Pi.add_apply, Pi.sub_apply, Pi.smul_apply, smul_eq_mul]; ring

theorem g_line (U : Tri K) (i : Fin 3) (y z : Pt K) (r : K) : g U i (y + r • (z - y)) = g U i y + r * (g U i z - g U i y) := by
  simp only [g, dot, Pi.add_apply, Pi.sub_apply, Pi.smul_apply, smul_eq_mul]; ring

theorem d2_proj {U : Tri K} (h : 0 < len U) (y : Pt K) : d2 (proj U y) y = tp U y ^ 2 / len U := by
  have hne := ne_of_gt h
  rw [proj_eq h, d2_eq_dot]
  have e : y - (y + (tp U y / len U) • nrm U) = -((tp U y / len U) • nrm U) := by abel
  rw [e]
  have e2 : dot (-((tp U y / len U) • nrm U)) (-((tp U y / len U) • nrm U)) = (tp U y / len U) ^ 2 * len U := by
    simp only [len, dot, Pi.neg_apply, Pi.smul_apply, smul_eq_mul]; ring
  rw [e2]
  field_simp

/-- The normal is orthogonal to the plane. -/
theorem plane_orth (U : Tri K) (w v : Fin 3 → K) (h : w 0 + w 1 + w 2 = v 0 + v 1 + v 2) : dot (comb U w - comb U v) (nrm U) = 0 := by
  have e : w 0 = v 0 + v 1 + v 2 - w 1 - w 2 := by linear_combination h
  simp only [nrm, comb, side_0, side_1, dot, cross_0, cross_1, cross_2, Pi.add_apply, Pi.sub_apply, Pi.smul_apply, smul_eq_mul, e]
  ring

theorem tp_in {U : Tri K} {x : Pt K} (h : InTri U x) : tp U x = 0 := by
  obtain ⟨w, hw, rfl⟩ := h
  have := plane_orth U (corner 0) w (by rw [hw.2]; simp [corner])
  rwa [comb_corner] at this

/-- Pythagoras. -/
theorem d2_split {U : Tri K} (h : 0 < len U) {x : Pt K} (w : Fin 3 → K) (hw : w 0 + w 1 + w 2 = 1) (hx : x = comb U w) (y : Pt K) :
    d2 x y = d2 x (proj U y) + tp U y ^ 2 / len U := by
  rw [← d2_proj h y]
  have o : dot (proj U y - x) (nrm U) = 0 := by
    rw [hx]; exact plane_orth U _ _ (by rw [hw, pw_sum h])
  have e : y - x = (proj U y - x) - (tp U y / len U) • nrm U := by rw [proj_eq h]; abel
  have e2 : y - proj U y = -((tp U y / len U) • nrm U) := by rw [proj_eq h]; abel
  rw [d2_eq_dot, d2_eq_dot, d2_eq_dot, e, e2]
  generalize proj U y - x = p at *
  generalize tp U y / len U = t at *
  simp only [dot, Pi.sub_apply, Pi.neg_apply, Pi.smul_apply, smul_eq_mul] at *
  linear_combination (-2 * t) * o

theorem pw_pos {U : Tri K} (h : 0 < len U) {y : Pt K} (hg : ∀ i, 0 < g U i y) : IsWeights (pw U y) :=
  ⟨fun _ => le_of_lt (div_pos (hg _) h), pw_sum h y⟩

/-- From a point of `U` towards the projection of `y`. -/
theorem toward_proj {U : Tri K} (h : 0 < len U) {x : Pt K} (hx : InTri U x) (y : Pt K) :
    (∃ x', OnEdge U x' ∧ d2 x' y ≤ d2 x y) ∨ ((∀ i, 0 < g U i y) ∧ tp U y ^ 2 / len U ≤ d2 x y) := by
  obtain ⟨w, hw, rfl⟩ := hx
  by_cases hg : ∀ i, 0 < g U i y
  · refine Or.inr ⟨hg, ?_⟩
    rw [d2_split h w hw.2 rfl y]
    have := d2_nonneg (comb U w) (proj U y)
    linarith
  · left
    rw [not_forall] at hg
    obtain ⟨i, hi⟩ := hg
    have hv : ∃ k, pw U y k ≤ 0 := by
      refine ⟨i + 2, ?_⟩
      have e : (i + 2 + 1 : Fin 3) = i := by fin_cases i <;> rfl
      show g U (i + 2 + 1) y / len U ≤ 0
      rw [e]
      exact div_nonpos_of_nonpos_of_nonneg (not_lt.1 hi) (le_of_lt h)
    obtain ⟨r, r0, r1, hpos, hz⟩ := first_exit hw.1 hv
    have hsum : w 0 + r * (pw U y 0 - w 0) + (w 1 + r * (pw U y 1 - w 1)) + (w 2 + r * (pw U y 2 - w 2)) = 1 := by
      linear_combination (1 - r) * hw.2 + r * pw_sum h y
    refine ⟨comb U (fun i => w i + r * (pw U y i - w i)), ⟨_, ⟨hpos, hsum⟩, hz, rfl⟩, ?_⟩
    rw [d2_split h _ hsum rfl y, d2_split h w hw.2 rfl y, ← comb_line]
    have e : d2 (comb U w + r • (comb U (pw U y) - comb U w)) (proj U y) = (1 - r) ^ 2 * d2 (comb U w) (proj U y) := by
      unfold proj
      simp only [d2, Pi.add_apply, Pi.sub_apply, Pi.smul_apply, smul_eq_mul]; ring
    rw [e]
    have hd := d2_nonneg (comb U w) (proj U y)
    have : (1 - r) ^ 2 ≤ 1 := by nlinarith
    nlinarith

/-- Moving a point whose projection is strictly inside `U`, without moving away from the plane. -/
theorem walk_core {U : Tri K} (h : 0 < len U) {y z : Pt K} (hy : tp U y ≠ 0) (hg : ∀ i, 0 < g U i y) (h0 : 0 ≤ tp U z * tp U y)
    (h1 : tp U z * tp U y ≤ tp U y ^ 2) :
    (∃ r x : _, 0 ≤ (r : K) ∧ r ≤ 1 ∧ OnEdge U x ∧ d2 x (y + r • (z - y)) ≤ tp U y ^ 2 / len U) ∨ (∀ i, 0 < g U i z) := by
  by_cases hz : ∀ i, 0 < g U i z
  · exact Or.inr hz
  · left
    rw [not_forall] at hz
    obtain ⟨i, hi⟩ := hz
    obtain ⟨r, r0, r1, hpos, ⟨k, hk⟩⟩ := first_exit (w := fun i => g U i y) (v := fun i => g U i z) (fun i => le_of_lt (hg i)) ⟨i, not_lt.1 hi⟩
    refine ⟨r, proj U (y + r • (z - y)), r0, r1, ⟨pw U (y + r • (z - y)), ⟨fun j => ?_, pw_sum h _⟩, ⟨k + 2, ?_⟩, rfl⟩, ?_⟩
    · show 0 ≤ g U (j + 1) _ / len U
      rw [g_line]
      exact div_nonneg (hpos _) (le_of_lt h)
    · show g U (k + 2 + 1) _ / len U = 0
      rw [show (k + 2 + 1 : Fin 3) = k by fin_cases k <;> rfl, g_line]
      have hk : g U k y + r * (g U k z - g U k y) = 0 := hk
      rw [hk, zero_div]
    · rw [d2_proj h, tp_line]
      apply div_le_div_of_nonneg_right _ (le_of_lt h)
      generalize tp U y = a at *
      generalize tp U z = b at *
      have ha : 0 < a ^ 2 := by positivity
      have hc0 : 0 ≤ a ^ 2 + r * (b * a - a ^ 2) := by nlinarith
      have hc1 : a ^ 2 + r * (b * a - a ^ 2) ≤ a ^ 2 := by nlinarith
      have : a ^ 2 * (a + r * (b - a)) ^ 2 ≤ a ^ 2 * a ^ 2 := by
        have e : a ^ 2 * (a + r * (b - a)) ^ 2 = (a ^ 2 + r * (b * a - a ^ 2)) ^ 2 := by ring
        rw [e, ← pow_two]
        exact pow_le_pow_left₀ hc0 hc1 2
      exact le_of_mul_le_mul_left this ha

theorem line_sub (y z : Pt K) (a b : K) : y + b • ((y + a • (z - y)) - y) = y + (b * a) • (z - y) := by
  apply vec_ext <;> simp <;> ring

/-- The same, stopping where the plane is reached. -/
theorem walk {U : Tri K} (h : 0 < len U) {y z : Pt K} (hg : ∀ i, 0 < g U i y) (h1 : tp U z * tp U y ≤ tp U y ^ 2) :
    (∃ (r : K) (x : Pt K), 0 ≤ r ∧ r ≤ 1 ∧ OnEdge U x ∧ d2 x (y + r • (z - y)) ≤ tp U y ^ 2 / len U) ∨
    (∃ r : K, 0 ≤ r ∧ r ≤ 1 ∧ InTri U (y + r • (z - y))) ∨
    ((∀ i, 0 < g U i z) ∧ 0 < tp U z * tp U y) := by
  have inside : ∀ q : Pt K, (∀ i, 0 < g U i q) → tp U q = 0 → InTri U q := by
    intro q hq ht
    have := proj_eq h q
    rw [ht, zero_div, zero_smul, add_zero] at this
    exact ⟨pw U q, pw_pos h hq, this.symm⟩
  by_cases hy : tp U y = 0
  · exact Or.inr (Or.inl ⟨0, le_refl _, zero_le_one, by rw [zero_smul, add_zero]; exact inside y hg hy⟩)
  · by_cases hs : 0 < tp U z * tp U y
    · rcases walk_core h hy hg (le_of_lt hs) h1 with ⟨r, x, r0, r1, hx⟩ | hz
      · exact Or.inl ⟨r, x, r0, r1, hx⟩
      · exact Or.inr (Or.inr ⟨hz, hs⟩)
    · have hs := not_lt.1 hs
      have ha : 0 < tp U y ^ 2 := by positivity
      have hd : 0 < tp U y ^ 2 - tp U z * tp U y := by linarith
      obtain ⟨a, hae⟩ : ∃ a, a = tp U y ^ 2 / (tp U y ^ 2 - tp U z * tp U y) := ⟨_, rfl⟩
      have a0 : 0 ≤ a := by rw [hae]; exact le_of_lt (div_pos ha hd)
      have a1 : a ≤ 1 := by rw [hae]; exact (div_le_one hd).2 (by linarith)
      have hz : tp U (y + a • (z - y)) = 0 := by
        rw [tp_line]
        have e : a * (tp U y ^ 2 - tp U z * tp U y) = tp U y ^ 2 := by rw [hae]; exact div_mul_cancel₀ _ (ne_of_gt hd)
        have e2 : tp U y * (tp U y + a * (tp U z - tp U y)) = 0 := by linear_combination -e
        exact (mul_eq_zero.1 e2).resolve_left hy
      rcases walk_core h (z := y + a • (z - y)) hy hg (by rw [hz]; simp) (by rw [hz]; simp; positivity) with ⟨r, x, r0, r1, hx⟩ | hi
      · rw [line_sub] at hx
        exact Or.inl ⟨r * a, x, mul_nonneg r0 a0, mul_le_one₀ r1 a0 a1, hx⟩
      · exact Or.inr (Or.inl ⟨a, a0, a1, inside _ hi hz⟩)

/-! ## Degenerate triangles -/

/-- If the normal vanishes, every point is on an edge. -/
theorem onEdge_of_degenerate {U : Tri K} (h : len U = 0) {x : Pt K} (hx : InTri U x) : OnEdge U x := by
  have hn : nrm U = 0 := dot_self_eq_zero h
  obtain ⟨w, hw, rfl⟩ := hx
  -- an affine dependence of the corners
  obtain ⟨d, hd0, hd1, hd2⟩ : ∃ d : Fin 3 → K, d ≠ 0 ∧ d 0 + d 1 + d 2 = 0 ∧ comb U d = 0 := by
    have c0 : cross (side U 0) (side U 1) 0 = 0 := congrFun hn 0
    have c1 : cross (side U 0) (side U 1) 1 = 0 := congrFun hn 1
    have c2 : cross (side U 0) (side U 1) 2 = 0 := congrFun hn 2
    by_cases he : side U 0 = 0
    · refine ⟨fun i => if i = 0 then -1 else if i = 1 then 1 else 0, fun hc => ?_, by simp, ?_⟩
      · have := congrFun hc 1
        simp at this
      · rw [side_0] at he
        have e : U 1 = U 0 := sub_eq_zero.1 he
        simp [comb, e]
    · -- `side 1 = m • side 0`
      obtain ⟨m, hm⟩ : ∃ m : K, side U 1 = m • side U 0 := by
        have hne : dot (side U 0) (side U 0) ≠ 0 := fun hz => he (dot_self_eq_zero hz)
        refine ⟨dot (side U 0) (side U 1) / dot (side U 0) (side U 0), ?_⟩
        have ht := triple (side U 0) (side U 1)
        have hz : cross (side U 1) (side U 0) = 0 := by
          apply vec_ext <;> simp only [cross_0, cross_1, cross_2, Pi.zero_apply] at * <;> linarith
        rw [hz] at ht
        have hz2 : cross (side U 0) (0 : Pt K) = 0 := by apply vec_ext <;> simp
        rw [hz2] at ht
        have ht := (sub_eq_zero.1 ht.symm)
        have := congrArg (fun v => (dot (side U 0) (side U 0))⁻¹ • v) ht
        simp only [smul_smul, inv_mul_cancel₀ hne, one_smul] at this
        rw [div_eq_inv_mul]
        exact this
      refine ⟨fun i => if i = 0 then m else if i = 1 then -1 - m else 1, fun hc => ?_, by simp, ?_⟩
      · have := congrFun hc 2
        simp at this
      · rw [side_0, side_1] at hm
        apply vec_ext
        · have := congrFun hm 0; simp [comb] at this ⊢; linear_combination this
        · have := congrFun hm 1; simp [comb] at this ⊢; linear_combination this
        · have := congrFun hm 2; simp [comb] at this ⊢; linear_combination this
  -- some weight decreases along it
  obtain ⟨i, hi⟩ : ∃ i, d i < 0 := by
    by_contra hc
    push Not at hc
    apply hd0
    have h0 := hc 0
    have h1 := hc 1
    have h2 := hc 2
    funext j
    fin_cases j <;> simp <;> linarith
  -- far enough for it to vanish
  obtain ⟨r, r0, r1, hp, hz⟩ := first_exit (w := w) (v := fun j => w j + (w i / -d i) * d j) hw.1
    ⟨i, by
      show w i + (w i / -d i) * d i ≤ 0
      have : d i ≠ 0 := ne_of_lt hi
      rw [show w i + w i / -d i * d i = 0 by field_simp; ring]⟩
  refine ⟨_, ⟨hp, ?_⟩, hz, ?_⟩
  · show w 0 + r * (w 0 + w i / -d i * d 0 - w 0) + (w 1 + r * (w 1 + w i / -d i * d 1 - w 1)) + (w 2 + r * (w 2 + w i / -d i * d 2 - w 2)) = 1
    linear_combination hw.2 + r * (w i / -d i) * hd1
  · have c0 := congrFun hd2 0
    have c1 := congrFun hd2 1
    have c2 := congrFun hd2 2
    apply vec_ext
    · simp [comb] at *; linear_combination (-r * (w i / -d i)) * c0
    · simp [comb] at *; linear_combination (-r * (w i / -d i)) * c1
    · simp [comb] at *; linear_combination (-r * (w i / -d i)) * c2

end TDP.TriDist
