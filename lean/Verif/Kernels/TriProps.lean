import Verif.Kernels.Tri
/-! C38: statements about `TriInt` and `TriInt_single`. -/
namespace TDP.Kernels
open TDP.Boxes

theorem legalBool' {w d : ℚ} : (decide (w * d ≥ 0) && decide (w * d ≤ d * d) && decide (d ≠ 0)) = true ↔ Legal w d := by
  simp [Legal, and_assoc]

/-! ## Triangles in one plane -/

theorem edgeEdge_sound {i0 i1 : Fin 3} {V0 V1 U0 U1 : Pt ℚ}
    (h : edgeEdge i0 i1 (V1 i0 - V0 i0) (V1 i1 - V0 i1) V0 U0 U1 = true) :
    ∃ l m : ℚ, 0 ≤ l ∧ l ≤ 1 ∧ 0 ≤ m ∧ m ≤ 1 ∧
      (1 - l) * V0 i0 + l * V1 i0 = (1 - m) * U0 i0 + m * U1 i0 ∧
      (1 - l) * V0 i1 + l * V1 i1 = (1 - m) * U0 i1 + m * U1 i1 := by
  unfold edgeEdge at h
  simp only at h
  set f := (V1 i1 - V0 i1) * (U0 i0 - U1 i0) - (V1 i0 - V0 i0) * (U0 i1 - U1 i1) with hf
  set d := (U0 i1 - U1 i1) * (V0 i0 - U0 i0) - (U0 i0 - U1 i0) * (V0 i1 - U0 i1) with hd
  set e := (V1 i0 - V0 i0) * (V0 i1 - U0 i1) - (V1 i1 - V0 i1) * (V0 i0 - U0 i0) with he
  have key : f ≠ 0 → 0 ≤ d / f → d / f ≤ 1 → 0 ≤ e / f → e / f ≤ 1 → ∃ l m : ℚ, 0 ≤ l ∧ l ≤ 1 ∧ 0 ≤ m ∧ m ≤ 1 ∧
      (1 - l) * V0 i0 + l * V1 i0 = (1 - m) * U0 i0 + m * U1 i0 ∧
      (1 - l) * V0 i1 + l * V1 i1 = (1 - m) * U0 i1 + m * U1 i1 := by
    intro hne a b c g
    refine ⟨d / f, e / f, a, b, c, g, ?_, ?_⟩
    · have h1 : d / f * f = d := div_mul_cancel₀ _ hne
      have h2 : e / f * f = e := div_mul_cancel₀ _ hne
      apply mul_right_cancel₀ hne
      linear_combination (V1 i0 - V0 i0) * h1 + (U0 i0 - U1 i0) * h2 + (V1 i0 - V0 i0) * hd + (U0 i0 - U1 i0) * he + (V0 i0 - U0 i0) * hf
    · have h1 : d / f * f = d := div_mul_cancel₀ _ hne
      have h2 : e / f * f = e := div_mul_cancel₀ _ hne
      apply mul_right_cancel₀ hne
      linear_combination (V1 i1 - V0 i1) * h1 + (U0 i1 - U1 i1) * h2 + (V1 i1 - V0 i1) * hd + (U0 i1 - U1 i1) * he + (V0 i1 - U0 i1) * hf
  by_cases hc : (f > 0 ∧ d ≥ 0 ∧ d ≤ f) ∨ (f < 0 ∧ d ≤ 0 ∧ d ≥ f)
  · rw [if_pos hc] at h
    rcases hc with ⟨c1, c2, c3⟩ | ⟨c1, c2, c3⟩
    · rw [if_pos c1, decide_eq_true_eq] at h
      exact key (ne_of_gt c1) (div_nonneg c2 (le_of_lt c1)) ((div_le_one c1).2 c3) (div_nonneg h.1 (le_of_lt c1)) ((div_le_one c1).2 h.2)
    · rw [if_neg (by linarith), decide_eq_true_eq] at h
      exact key (ne_of_lt c1) (div_nonneg_of_nonpos c2 (le_of_lt c1)) ((div_le_one_of_neg c1).2 c3) (div_nonneg_of_nonpos h.1 (le_of_lt c1))
        ((div_le_one_of_neg c1).2 h.2)
  · rw [if_neg hc] at h
    exact absurd h (by decide)

theorem pointInTri_sound {i0 i1 : Fin 3} {V0 U0 U1 U2 : Pt ℚ} (h : pointInTri i0 i1 V0 U0 U1 U2 = true) :
    ∃ a b : ℚ, 0 ≤ a ∧ 0 ≤ b ∧ a + b ≤ 1 ∧ V0 i0 = (1 - a - b) * U0 i0 + a * U1 i0 + b * U2 i0 ∧
      V0 i1 = (1 - a - b) * U0 i1 + a * U1 i1 + b * U2 i1 := by
  unfold pointInTri at h
  simp only at h
  have w0 : edgeSide i0 i1 V0 U1 U2 * U0 i0 + edgeSide i0 i1 V0 U2 U0 * U1 i0 + edgeSide i0 i1 V0 U0 U1 * U2 i0 =
      (edgeSide i0 i1 V0 U0 U1 + edgeSide i0 i1 V0 U1 U2 + edgeSide i0 i1 V0 U2 U0) * V0 i0 := by
    unfold edgeSide; ring
  have w1 : edgeSide i0 i1 V0 U1 U2 * U0 i1 + edgeSide i0 i1 V0 U2 U0 * U1 i1 + edgeSide i0 i1 V0 U0 U1 * U2 i1 =
      (edgeSide i0 i1 V0 U0 U1 + edgeSide i0 i1 V0 U1 U2 + edgeSide i0 i1 V0 U2 U0) * V0 i1 := by
    unfold edgeSide; ring
  generalize edgeSide i0 i1 V0 U0 U1 = d0 at *
  generalize edgeSide i0 i1 V0 U1 U2 = d1 at *
  generalize edgeSide i0 i1 V0 U2 U0 = d2 at *
  by_cases h1 : d0 * d1 > 0
  · rw [if_pos h1, decide_eq_true_eq] at h
    have key : ∀ d0 d1 d2 : ℚ, 0 < d0 → 0 < d1 → 0 < d2 → 
        d1 * U0 i0 + d2 * U1 i0 + d0 * U2 i0 = (d0 + d1 + d2) * V0 i0 →
        d1 * U0 i1 + d2 * U1 i1 + d0 * U2 i1 = (d0 + d1 + d2) * V0 i1 →
        ∃ a b : ℚ, 0 ≤ a ∧ 0 ≤ b ∧ a + b ≤ 1 ∧ V0 i0 = (1 - a - b) * U0 i0 + a * U1 i0 + b * U2 i0 ∧
          V0 i1 = (1 - a - b) * U0 i1 + a * U1 i1 + b * U2 i1 := by
      intro d0 d1 d2 p0 p1 p2 w0 w1
      have hs : 0 < d0 + d1 + d2 := by linarith
      have hne := ne_of_gt hs
      have m2 : d2 / (d0 + d1 + d2) * (d0 + d1 + d2) = d2 := div_mul_cancel₀ _ hne
      have m0 : d0 / (d0 + d1 + d2) * (d0 + d1 + d2) = d0 := div_mul_cancel₀ _ hne
      refine ⟨d2 / (d0 + d1 + d2), d0 / (d0 + d1 + d2), by positivity, by positivity, ?_, ?_, ?_⟩
      · rw [← add_div, div_le_one hs]; linarith
      · apply mul_right_cancel₀ hne
        linear_combination (-1 : ℚ) * w0 - (U1 i0 - U0 i0) * m2 - (U2 i0 - U0 i0) * m0
      · apply mul_right_cancel₀ hne
        linear_combination (-1 : ℚ) * w1 - (U1 i1 - U0 i1) * m2 - (U2 i1 - U0 i1) * m0
    rcases lt_trichotomy d0 0 with z | z | z
    · have z1 : d1 < 0 := by
        by_contra hh
        have := mul_nonpos_of_nonpos_of_nonneg (le_of_lt z) (not_lt.1 hh); linarith
      have z2 : d2 < 0 := by
        by_contra hh
        have := mul_nonpos_of_nonpos_of_nonneg (le_of_lt z) (not_lt.1 hh); linarith
      exact key (-d0) (-d1) (-d2) (by linarith) (by linarith) (by linarith) (by linarith) (by linarith)
    · rw [z] at h1; simp at h1
    · have z1 : 0 < d1 := by
        by_contra hh
        have := mul_nonpos_of_nonneg_of_nonpos (le_of_lt z) (not_lt.1 hh); linarith
      have z2 : 0 < d2 := by
        by_contra hh
        have := mul_nonpos_of_nonneg_of_nonpos (le_of_lt z) (not_lt.1 hh); linarith
      exact key d0 d1 d2 z z1 z2 w0 w1
  · rw [if_neg h1] at h
    exact absurd h (by decide)

/-- The dropped axis has a nonzero component of the normal: points of the plane agreeing on the two others agree. -/
theorem projAxes_lift {N x y : Pt ℚ} (hN : N ≠ 0) (hp : vdot N (vsub x y) = 0) (h0 : x (projAxes N).1 = y (projAxes N).1)
    (h1 : x (projAxes N).2 = y (projAxes N).2) : x = y := by
  unfold vdot vsub at hp
  simp only [pt3_0, pt3_1, pt3_2] at hp
  have ab : ∀ a b : ℚ, |a| > |b| → a ≠ 0 := by
    intro a b h he
    rw [he, abs_zero] at h
    exact absurd (abs_nonneg b) (not_le.2 h)
  have n0 : N 0 ≠ 0 ∨ N 1 ≠ 0 ∨ N 2 ≠ 0 := by
    by_contra hh
    rw [not_or, not_or, not_not, not_not, not_not] at hh
    exact hN (funext (fin3_all hh.1 hh.2.1 hh.2.2))
  unfold projAxes at h0 h1
  have fin : ∀ (k : Fin 3), N k ≠ 0 → N k * (x k - y k) = 0 → x k = y k := by
    intro k hk h
    rcases mul_eq_zero.1 h with h | h
    · exact absurd h hk
    · linarith
  have drop2 : N 2 ≠ 0 → x 0 = y 0 → x 1 = y 1 → x = y := by
    intro hn e0 e1
    exact funext (fin3_all e0 e1 (fin 2 hn (by rw [e0, e1] at hp; linarith)))
  have drop1 : N 1 ≠ 0 → x 0 = y 0 → x 2 = y 2 → x = y := by
    intro hn e0 e1
    exact funext (fin3_all e0 (fin 1 hn (by rw [e0, e1] at hp; linarith)) e1)
  have drop0 : N 0 ≠ 0 → x 1 = y 1 → x 2 = y 2 → x = y := by
    intro hn e0 e1
    exact funext (fin3_all (fin 0 hn (by rw [e0, e1] at hp; linarith)) e0 e1)
  by_cases c1 : |N 0| > |N 1|
  · rw [if_pos c1] at h0 h1
    by_cases c2 : |N 0| > |N 2|
    · rw [if_pos c2] at h0 h1
      exact drop0 (ab _ _ c1) h0 h1
    · rw [if_neg c2] at h0 h1
      refine drop2 ?_ h0 h1
      exact ab _ (N 1) (lt_of_lt_of_le c1 (not_lt.1 c2))
  · rw [if_neg c1] at h0 h1
    by_cases c2 : |N 2| > |N 1|
    · rw [if_pos c2] at h0 h1
      exact drop2 (ab _ _ c2) h0 h1
    · rw [if_neg c2] at h0 h1
      refine drop1 ?_ h0 h1
      intro hz
      rw [hz, abs_zero] at c1 c2
      rcases n0 with h | h | h
      · exact c1 (abs_pos.2 h)
      · exact h hz
      · exact c2 (abs_pos.2 h)

/-- Triangles are convex. -/
theorem InTri.comb {C P1 P2 u v : Pt ℚ} (hu : InTri C P1 P2 u) (hv : InTri C P1 P2 v) {l : ℚ} (h0 : 0 ≤ l) (h1 : l ≤ 1) :
    InTri C P1 P2 (fun i => (1 - l) * u i + l * v i) := by
  obtain ⟨a, b, ha, hb, hab, e⟩ := hu
  obtain ⟨a', b', ha', hb', hab', e'⟩ := hv
  have h1l : 0 ≤ 1 - l := by linarith
  refine ⟨(1 - l) * a + l * a', (1 - l) * b + l * b', by positivity, by positivity, ?_, ?_⟩
  · have q1 := mul_le_mul_of_nonneg_left hab h1l
    have q2 := mul_le_mul_of_nonneg_left hab' h0
    linarith
  · intro i
    show (1 - l) * u i + l * v i = _
    rw [e i, e' i]; ring

theorem vadd_apply (a b : Pt ℚ) (i : Fin 3) : vadd a b i = a i + b i := by
  revert i; exact fin3_all rfl rfl rfl

theorem InTri.c0 (C P1 P2 : Pt ℚ) : InTri C P1 P2 C := ⟨0, 0, le_refl _, le_refl _, by norm_num, fun i => by ring⟩
theorem InTri.c1 (C P1 P2 : Pt ℚ) : InTri C P1 P2 (vadd C P1) :=
  ⟨1, 0, by norm_num, le_refl _, by norm_num, fun i => by rw [vadd_apply]; ring⟩
theorem InTri.c2 (C P1 P2 : Pt ℚ) : InTri C P1 P2 (vadd C P2) :=
  ⟨0, 1, le_refl _, by norm_num, by norm_num, fun i => by rw [vadd_apply]; ring⟩

theorem InTri.on_plane {C P1 P2 x : Pt ℚ} (h : InTri C P1 P2 x) : vdot (vcross P1 P2) (vsub x C) = 0 := by
  obtain ⟨a, b, -, -, -, e⟩ := h
  unfold vdot vcross vsub
  simp only [pt3_0, pt3_1, pt3_2, e 0, e 1, e 2]
  ring

theorem plane_of_inTri {C N D Q1 Q2 x : Pt ℚ} (hd : vdot N (vsub D C) = 0) (h1 : vdot N Q1 = 0) (h2 : vdot N Q2 = 0)
    (h : InTri D Q1 Q2 x) : vdot N (vsub x C) = 0 := by
  obtain ⟨a, b, -, -, -, e⟩ := h
  unfold vdot vsub at *
  simp only [pt3_0, pt3_1, pt3_2, e 0, e 1, e 2] at *
  linear_combination hd + a * h1 + b * h2

/-- The test for triangles in one plane says yes only if they meet. -/
theorem coplanar_sound {C P1 P2 D Q1 Q2 : Pt ℚ} (hN : vcross P1 P2 ≠ 0) (hd : vdot (vcross P1 P2) (vsub D C) = 0)
    (h1 : vdot (vcross P1 P2) Q1 = 0) (h2 : vdot (vcross P1 P2) Q2 = 0)
    (h : coplanarTriTri (vcross P1 P2) C (vadd C P1) (vadd C P2) D (vadd D Q1) (vadd D Q2) = true) :
    TriMeet C P1 P2 D Q1 Q2 := by
  have lift : ∀ x y, InTri C P1 P2 x → InTri D Q1 Q2 y → x (projAxes (vcross P1 P2)).1 = y (projAxes (vcross P1 P2)).1 →
      x (projAxes (vcross P1 P2)).2 = y (projAxes (vcross P1 P2)).2 → TriMeet C P1 P2 D Q1 Q2 := by
    intro x y hx hy e0 e1
    have px := hx.on_plane
    have py := plane_of_inTri hd h1 h2 hy
    have : vdot (vcross P1 P2) (vsub x y) = 0 := by
      unfold vdot vsub at *
      simp only [pt3_0, pt3_1, pt3_2] at *
      linear_combination px - py
    have := projAxes_lift hN this e0 e1
    exact ⟨x, hx, this ▸ hy⟩
  have edge : ∀ V0 V1 U0 U1, InTri C P1 P2 V0 → InTri C P1 P2 V1 → InTri D Q1 Q2 U0 → InTri D Q1 Q2 U1 →
      edgeEdge (projAxes (vcross P1 P2)).1 (projAxes (vcross P1 P2)).2
        (V1 (projAxes (vcross P1 P2)).1 - V0 (projAxes (vcross P1 P2)).1)
        (V1 (projAxes (vcross P1 P2)).2 - V0 (projAxes (vcross P1 P2)).2) V0 U0 U1 = true → TriMeet C P1 P2 D Q1 Q2 := by
    intro V0 V1 U0 U1 hV0 hV1 hU0 hU1 he
    obtain ⟨l, m, l0, l1, m0, m1, e0, e1⟩ := edgeEdge_sound he
    exact lift _ _ (hV0.comb hV1 l0 l1) (hU0.comb hU1 m0 m1) e0 e1
  have tri : ∀ V0 V1, InTri C P1 P2 V0 → InTri C P1 P2 V1 →
      edgeTri (projAxes (vcross P1 P2)).1 (projAxes (vcross P1 P2)).2 V0 V1 D (vadd D Q1) (vadd D Q2) = true →
      TriMeet C P1 P2 D Q1 Q2 := by
    intro V0 V1 hV0 hV1 he
    unfold edgeTri at he
    simp only [Bool.or_eq_true] at he
    rcases he with (he | he) | he
    · exact edge _ _ _ _ hV0 hV1 (InTri.c0 _ _ _) (InTri.c1 _ _ _) he
    · exact edge _ _ _ _ hV0 hV1 (InTri.c1 _ _ _) (InTri.c2 _ _ _) he
    · exact edge _ _ _ _ hV0 hV1 (InTri.c2 _ _ _) (InTri.c0 _ _ _) he
  unfold coplanarTriTri at h
  simp only [Bool.or_eq_true] at h
  rcases h with (((h | h) | h) | h) | h
  · exact tri _ _ (InTri.c0 _ _ _) (InTri.c1 _ _ _) h
  · exact tri _ _ (InTri.c1 _ _ _) (InTri.c2 _ _ _) h
  · exact tri _ _ (InTri.c2 _ _ _) (InTri.c0 _ _ _) h
  · obtain ⟨a, b, a0, b0, ab, e0, e1⟩ := pointInTri_sound h
    refine lift C (fun i => D i + a * Q1 i + b * Q2 i) (InTri.c0 _ _ _) ⟨a, b, a0, b0, ab, fun _ => rfl⟩ ?_ ?_
    · rw [e0, vadd_apply, vadd_apply]; ring
    · rw [e1, vadd_apply, vadd_apply]; ring
  · obtain ⟨a, b, a0, b0, ab, e0, e1⟩ := pointInTri_sound h
    refine lift (fun i => C i + a * P1 i + b * P2 i) D ⟨a, b, a0, b0, ab, fun _ => rfl⟩ (InTri.c0 _ _ _) ?_ ?_
    · rw [e0, vadd_apply, vadd_apply]; ring
    · rw [e1, vadd_apply, vadd_apply]; ring

/-! ## `TriInt` -/

/-- `TriInt` by cases, with the scaled planar tests. -/
theorem triInt_eq (C P1 P2 D Q1 Q2 : Pt ℚ) : triInt C P1 P2 D Q1 Q2 =
    if nd P1 P2 Q1 = 0 ∧ nd P1 P2 Q2 = 0 then
      (if -nd P1 P2 (vsub D C) ≠ 0 then false
        else coplanarTriTri (vcross P1 P2) C (vadd C P1) (vadd C P2) D (vadd D Q1) (vadd D Q2))
    else
      let d := -nd P1 P2 (vsub D C)
      let q1 := nd P1 P2 Q1
      let q2 := nd P1 P2 Q2
      let l1 : Bool := decide (d * q1 ≥ 0) && decide (d * q1 ≤ q1 * q1) && decide (q1 ≠ 0)
      let l2 : Bool := decide (d * q2 ≥ 0) && decide (d * q2 ≤ q2 * q2) && decide (q2 ≠ 0)
      if !l2 && !l1 then false
      else if l2 && l1 then
        triInt2D P1 P2 (vsub D C) (q1 * q2) (d * q1 * Q2 0 + -(d * q2) * Q1 0) (d * q1 * Q2 1 + -(d * q2) * Q1 1) (d * q2) Q1
      else if l1 then
        triInt2D P1 P2 (vsub D C) (q1 * (q2 - q1))
          ((q1 * (q2 - q1) - (d - q1) * q1 - (d * q2 - d * q1)) * Q1 0 + (d - q1) * q1 * Q2 0)
          ((q1 * (q2 - q1) - (d - q1) * q1 - (d * q2 - d * q1)) * Q1 1 + (d - q1) * q1 * Q2 1) (d * q2 - d * q1) Q1
      else
        triInt2D P1 P2 (vsub D C) (q2 * (q2 - q1))
          ((q2 * (q2 - q1) - (d - q1) * q2) * Q1 0 + ((d - q1) * q2 - (d * q2 - d * q1)) * Q2 0)
          ((q2 * (q2 - q1) - (d - q1) * q2) * Q1 1 + ((d - q1) * q2 - (d * q2 - d * q1)) * Q2 1) (d * q2 - d * q1) Q2 := by
  have hdr : -((vsub D C) 0) * (P1 1 * P2 2 - P2 1 * P1 2) + (vsub D C) 1 * (P1 0 * P2 2 - P2 0 * P1 2)
      - (vsub D C) 2 * (P1 0 * P2 1 - P2 0 * P1 1) = -nd P1 P2 (vsub D C) := by
    unfold nd dp0 dp1 dp2; ring
  unfold triInt
  simp only [hdr]
  rfl

theorem third_simplex {s : ℚ} (h0 : 0 ≤ s) (h1 : s ≤ 1) : Simplex (1 - s) s := ⟨by linarith, h0, by linarith⟩

/-- C38, soundness: when the test answers yes for a triangle 1 that is not degenerate, the triangles do have a point
in common. -/
theorem C38_sound {C P1 P2 D Q1 Q2 : Pt ℚ} (hN : vcross P1 P2 ≠ 0) (h : triInt C P1 P2 D Q1 Q2 = true) :
    TriMeet C P1 P2 D Q1 Q2 := by
  rw [triInt_eq] at h
  by_cases hz : nd P1 P2 Q1 = 0 ∧ nd P1 P2 Q2 = 0
  · rw [if_pos hz] at h
    by_cases hd : -nd P1 P2 (vsub D C) ≠ 0
    · rw [if_pos hd] at h; exact absurd h (by decide)
    · rw [if_neg hd] at h
      rw [not_not, neg_eq_zero, nd_eq] at hd
      rw [nd_eq, nd_eq] at hz
      exact coplanar_sound hN hd hz.1 hz.2 h
  · rw [if_neg hz] at h
    simp only at h
    rw [not_and_or] at hz
    set d := -nd P1 P2 (vsub D C) with hd
    set q1 := nd P1 P2 Q1 with hq1
    set q2 := nd P1 P2 Q2 with hq2
    have hr : nd P1 P2 (vsub D C) = -d := by rw [hd]; ring
    by_cases l1 : Legal d q1
    · have n1 := l1.2.2
      by_cases l2 : Legal d q2
      · have n2 := l2.2.2
        rw [legalBool'.2 l1, legalBool'.2 l2] at h
        simp only [Bool.not_true, Bool.and_self, Bool.false_eq_true, if_false, if_true] at h
        unfold triInt2D at h
        obtain ⟨s0, s1⟩ := legal_param l1
        obtain ⟨u0, u1⟩ := legal_param l2
        have m1 : d / q1 * q1 = d := div_mul_cancel₀ _ n1
        have m2 : d / q2 * q2 = d := div_mul_cancel₀ _ n2
        refine chord_sound (a1 := d / q1) (a2 := 0) (b1 := 0) (b2 := d / q2) (mul_ne_zero n1 n2) ?_ ?_ ?_ ?_ ?_ ?_ hz
          ⟨s0, le_refl _, by linarith⟩ ⟨le_refl _, u0, by linarith⟩ h
        · show q1 * q2 * (D 0 - C 0) + _ = _; linear_combination (-(q2 * Q1 0)) * m1
        · show q1 * q2 * (D 1 - C 1) + _ = _; linear_combination (-(q2 * Q1 1)) * m1
        · linear_combination (q2 * Q1 0) * m1 - (q1 * Q2 0) * m2
        · linear_combination (q2 * Q1 1) * m1 - (q1 * Q2 1) * m2
        · rw [hr, ← hq1, ← hq2]; linear_combination m1
        · rw [hr, ← hq1, ← hq2]; linear_combination m2
      · obtain ⟨n3, v0, v1⟩ := legal_third l1 l2
        have f2 : (decide (d * q2 ≥ 0) && decide (d * q2 ≤ q2 * q2) && decide (q2 ≠ 0)) = false := by
          rw [← Bool.not_eq_true]; exact fun hh => l2 (legalBool'.1 hh)
        rw [legalBool'.2 l1, f2] at h
        simp only [Bool.not_true, Bool.not_false, Bool.and_false, Bool.false_and, Bool.false_eq_true, if_false, if_true] at h
        unfold triInt2D at h
        obtain ⟨s0, s1⟩ := legal_param l1
        have m1 : d / q1 * q1 = d := div_mul_cancel₀ _ n1
        have m3 : (d - q1) / (q2 - q1) * (q2 - q1) = d - q1 := div_mul_cancel₀ _ n3
        refine chord_sound (a1 := d / q1) (a2 := 0) (b1 := 1 - (d - q1) / (q2 - q1)) (b2 := (d - q1) / (q2 - q1)) (mul_ne_zero n1 n3)
          ?_ ?_ ?_ ?_ ?_ ?_ hz ⟨s0, le_refl _, by linarith⟩ (third_simplex v0 v1) h
        · show q1 * (q2 - q1) * (D 0 - C 0) + _ = _; linear_combination (-((q2 - q1) * Q1 0)) * m1
        · show q1 * (q2 - q1) * (D 1 - C 1) + _ = _; linear_combination (-((q2 - q1) * Q1 1)) * m1
        · linear_combination ((q2 - q1) * Q1 0) * m1 + (q1 * Q1 0 - q1 * Q2 0) * m3
        · linear_combination ((q2 - q1) * Q1 1) * m1 + (q1 * Q1 1 - q1 * Q2 1) * m3
        · rw [hr, ← hq1, ← hq2]; linear_combination m1
        · rw [hr, ← hq1, ← hq2]; linear_combination m3
    · have f1 : (decide (d * q1 ≥ 0) && decide (d * q1 ≤ q1 * q1) && decide (q1 ≠ 0)) = false := by
        rw [← Bool.not_eq_true]; exact fun hh => l1 (legalBool'.1 hh)
      by_cases l2 : Legal d q2
      · have n2 := l2.2.2
        obtain ⟨n3, v0, v1⟩ := legal_third' l1 l2
        rw [legalBool'.2 l2, f1] at h
        simp only [Bool.not_true, Bool.not_false, Bool.and_false, Bool.and_true, Bool.false_and, Bool.false_eq_true, if_false, if_true] at h
        unfold triInt2D at h
        obtain ⟨u0, u1⟩ := legal_param l2
        have m2 : d / q2 * q2 = d := div_mul_cancel₀ _ n2
        have m3 : (d - q1) / (q2 - q1) * (q2 - q1) = d - q1 := div_mul_cancel₀ _ n3
        refine chord_sound (a1 := 0) (a2 := d / q2) (b1 := 1 - (d - q1) / (q2 - q1)) (b2 := (d - q1) / (q2 - q1)) (mul_ne_zero n2 n3)
          ?_ ?_ ?_ ?_ ?_ ?_ hz ⟨le_refl _, u0, by linarith⟩ (third_simplex v0 v1) h
        · show q2 * (q2 - q1) * (D 0 - C 0) + _ = _; linear_combination (-((q2 - q1) * Q2 0)) * m2
        · show q2 * (q2 - q1) * (D 1 - C 1) + _ = _; linear_combination (-((q2 - q1) * Q2 1)) * m2
        · linear_combination ((q2 - q1) * Q2 0) * m2 + (q2 * Q1 0 - q2 * Q2 0) * m3
        · linear_combination ((q2 - q1) * Q2 1) * m2 + (q2 * Q1 1 - q2 * Q2 1) * m3
        · rw [hr, ← hq1, ← hq2]; linear_combination m2
        · rw [hr, ← hq1, ← hq2]; linear_combination m3
      · have f2 : (decide (d * q2 ≥ 0) && decide (d * q2 ≤ q2 * q2) && decide (q2 ≠ 0)) = false := by
          rw [← Bool.not_eq_true]; exact fun hh => l2 (legalBool'.1 hh)
        rw [f1, f2] at h
        simp at h

/-- C38, completeness in general position: the plane of triangle 1 is not vertical (its normal has a `z` part), no
corner of triangle 2 lies in the plane of triangle 1 and the first corner of triangle 1 does not lie in the plane of
triangle 2. Then triangles that have a point in common are reported. (Missing for the full C38: the excluded
positions, where the code really fails, see the counterexamples below.) -/
theorem C38_complete_partial {C P1 P2 D Q1 Q2 : Pt ℚ} (hN : vcross P1 P2 2 ≠ 0)
    (h0 : offPlane C P1 P2 D ≠ 0) (h1 : offPlane C P1 P2 (vadd D Q1) ≠ 0) (h2 : offPlane C P1 P2 (vadd D Q2) ≠ 0)
    (hC : offPlane D Q1 Q2 C ≠ 0) (h : TriMeet C P1 P2 D Q1 Q2) : triInt C P1 P2 D Q1 Q2 = true := by
  obtain ⟨p, ⟨a, b, a0, b0, ab, e⟩, ⟨x, y, x0, y0, xy, e'⟩⟩ := h
  have hdp : dp2 P1 P2 ≠ 0 := by
    unfold vcross at hN; simp only [pt3_2] at hN
    unfold dp2; intro hh; apply hN; linarith
  have hm : vdot (vcross Q1 Q2) (vsub D C) ≠ 0 := by
    unfold offPlane at hC
    intro hh; apply hC
    unfold vdot vsub at *
    simp only [pt3_0, pt3_1, pt3_2] at *
    linear_combination -hh
  rw [triInt_eq]
  have hr : nd P1 P2 (vsub D C) = offPlane C P1 P2 D := nd_eq _ _ _
  have hr1 : nd P1 P2 (vsub D C) + nd P1 P2 Q1 = offPlane C P1 P2 (vadd D Q1) := by
    rw [nd_eq, nd_eq]; unfold offPlane vdot vsub vadd; simp only [pt3_0, pt3_1, pt3_2]; ring
  have hr2 : nd P1 P2 (vsub D C) + nd P1 P2 Q2 = offPlane C P1 P2 (vadd D Q2) := by
    rw [nd_eq, nd_eq]; unfold offPlane vdot vsub vadd; simp only [pt3_0, pt3_1, pt3_2]; ring
  have hpl : nd P1 P2 (vsub D C) + x * nd P1 P2 Q1 + y * nd P1 P2 Q2 = 0 := by
    have e0 := (e 0).symm.trans (e' 0)
    have e1 := (e 1).symm.trans (e' 1)
    have e2 := (e 2).symm.trans (e' 2)
    unfold nd vsub dp0 dp1 dp2
    simp only [pt3_0, pt3_1, pt3_2]
    linear_combination (-(P1 1 * P2 2 - P2 1 * P1 2)) * e0 + (P1 0 * P2 2 - P2 0 * P1 2) * e1 - (P1 0 * P2 1 - P2 0 * P1 1) * e2
  rw [← hr] at h0
  rw [← hr1] at h1
  rw [← hr2] at h2
  have hz : ¬ (nd P1 P2 Q1 = 0 ∧ nd P1 P2 Q2 = 0) := by
    rintro ⟨z1, z2⟩
    rw [z1, z2] at hpl
    apply h0; linarith
  rw [if_neg hz]
  simp only
  set d := -nd P1 P2 (vsub D C) with hd
  set q1 := nd P1 P2 Q1 with hq1
  set q2 := nd P1 P2 Q2 with hq2
  have hrd : nd P1 P2 (vsub D C) = -d := by rw [hd]; ring
  rw [hrd] at h0 h1 h2 hpl
  have hd0 : d ≠ 0 := fun hh => h0 (by linarith)
  rcases chord_coeffs hd0 ⟨x0, y0, xy⟩ (by linarith : x * q1 + y * q2 = d) with
    ⟨l1, l2, l, c0, c1, ex, ey⟩ | ⟨l1, l2, l, c0, c1, ex, ey⟩ | ⟨l1, l2, l, c0, c1, ex, ey⟩
  · have n1 := l1.2.2
    have n2 := l2.2.2
    rw [legalBool'.2 l1, legalBool'.2 l2]
    simp only [Bool.not_true, Bool.and_self, Bool.false_eq_true, if_false, if_true]
    unfold triInt2D
    have m1 : d / q1 * q1 = d := div_mul_cancel₀ _ n1
    have m2 : d / q2 * q2 = d := div_mul_cancel₀ _ n2
    refine chord_complete (C := C) (D := D) (Q1 := Q1) (Q2 := Q2) (a1 := d / q1) (a2 := 0) (b1 := 0) (b2 := d / q2)
      (mul_ne_zero n1 n2) ?_ ?_ ?_ ?_ ?_ ?_ hdp hm (Or.inl (div_ne_zero hd0 n1)) c0 c1 ⟨a0, b0, ab⟩ ?_
    · show q1 * q2 * (D 0 - C 0) + _ = _; linear_combination (-(q2 * Q1 0)) * m1
    · show q1 * q2 * (D 1 - C 1) + _ = _; linear_combination (-(q2 * Q1 1)) * m1
    · linear_combination (q2 * Q1 0) * m1 - (q1 * Q2 0) * m2
    · linear_combination (q2 * Q1 1) * m1 - (q1 * Q2 1) * m2
    · rw [hrd, ← hq1, ← hq2]; linear_combination m1
    · rw [hrd, ← hq1, ← hq2]; linear_combination m2
    · intro i
      have := (e i).symm.trans (e' i)
      rw [ex, ey] at this
      linear_combination -this
  · have n1 := l1.2.2
    obtain ⟨n3, v0, v1⟩ := legal_third l1 l2
    have f2 : (decide (d * q2 ≥ 0) && decide (d * q2 ≤ q2 * q2) && decide (q2 ≠ 0)) = false := by
      rw [← Bool.not_eq_true]; exact fun hh => l2 (legalBool'.1 hh)
    rw [legalBool'.2 l1, f2]
    simp only [Bool.not_true, Bool.not_false, Bool.and_false, Bool.false_and, Bool.false_eq_true, if_false, if_true]
    unfold triInt2D
    have m1 : d / q1 * q1 = d := div_mul_cancel₀ _ n1
    have m3 : (d - q1) / (q2 - q1) * (q2 - q1) = d - q1 := div_mul_cancel₀ _ n3
    have hs : (0 : ℚ) ≠ (d - q1) / (q2 - q1) :=
      Ne.symm (div_ne_zero (fun hh => h1 (by linarith)) n3)
    refine chord_complete (C := C) (D := D) (Q1 := Q1) (Q2 := Q2) (a1 := d / q1) (a2 := 0) (b1 := 1 - (d - q1) / (q2 - q1))
      (b2 := (d - q1) / (q2 - q1)) (mul_ne_zero n1 n3) ?_ ?_ ?_ ?_ ?_ ?_ hdp hm (Or.inr hs) c0 c1 ⟨a0, b0, ab⟩ ?_
    · show q1 * (q2 - q1) * (D 0 - C 0) + _ = _; linear_combination (-((q2 - q1) * Q1 0)) * m1
    · show q1 * (q2 - q1) * (D 1 - C 1) + _ = _; linear_combination (-((q2 - q1) * Q1 1)) * m1
    · linear_combination ((q2 - q1) * Q1 0) * m1 + (q1 * Q1 0 - q1 * Q2 0) * m3
    · linear_combination ((q2 - q1) * Q1 1) * m1 + (q1 * Q1 1 - q1 * Q2 1) * m3
    · rw [hrd, ← hq1, ← hq2]; linear_combination m1
    · rw [hrd, ← hq1, ← hq2]; linear_combination m3
    · intro i
      have := (e i).symm.trans (e' i)
      rw [ex, ey] at this
      linear_combination -this
  · have n2 := l2.2.2
    obtain ⟨n3, v0, v1⟩ := legal_third' l1 l2
    have f1 : (decide (d * q1 ≥ 0) && decide (d * q1 ≤ q1 * q1) && decide (q1 ≠ 0)) = false := by
      rw [← Bool.not_eq_true]; exact fun hh => l1 (legalBool'.1 hh)
    rw [legalBool'.2 l2, f1]
    simp only [Bool.not_true, Bool.not_false, Bool.and_false, Bool.and_true, Bool.false_and, Bool.false_eq_true, if_false, if_true]
    unfold triInt2D
    have m2 : d / q2 * q2 = d := div_mul_cancel₀ _ n2
    have m3 : (d - q1) / (q2 - q1) * (q2 - q1) = d - q1 := div_mul_cancel₀ _ n3
    have hs : (0 : ℚ) ≠ 1 - (d - q1) / (q2 - q1) := by
      intro hh
      apply h2
      have : (d - q1) / (q2 - q1) = 1 := by linarith
      rw [this] at m3
      linarith
    refine chord_complete (C := C) (D := D) (Q1 := Q1) (Q2 := Q2) (a1 := 0) (a2 := d / q2) (b1 := 1 - (d - q1) / (q2 - q1))
      (b2 := (d - q1) / (q2 - q1)) (mul_ne_zero n2 n3) ?_ ?_ ?_ ?_ ?_ ?_ hdp hm (Or.inl hs) c0 c1 ⟨a0, b0, ab⟩ ?_
    · show q2 * (q2 - q1) * (D 0 - C 0) + _ = _; linear_combination (-((q2 - q1) * Q2 0)) * m2
    · show q2 * (q2 - q1) * (D 1 - C 1) + _ = _; linear_combination (-((q2 - q1) * Q2 1)) * m2
    · linear_combination ((q2 - q1) * Q2 0) * m2 + (q2 * Q1 0 - q2 * Q2 0) * m3
    · linear_combination ((q2 - q1) * Q2 1) * m2 + (q2 * Q1 1 - q2 * Q2 1) * m3
    · rw [hrd, ← hq1, ← hq2]; linear_combination m2
    · rw [hrd, ← hq1, ← hq2]; linear_combination m3
    · intro i
      have := (e i).symm.trans (e' i)
      rw [ex, ey] at this
      linear_combination -this

/-- C38 in general position: the test answers exactly whether the triangles have a point in common. -/
theorem C38_exact_partial {C P1 P2 D Q1 Q2 : Pt ℚ} (hN : vcross P1 P2 2 ≠ 0)
    (h0 : offPlane C P1 P2 D ≠ 0) (h1 : offPlane C P1 P2 (vadd D Q1) ≠ 0) (h2 : offPlane C P1 P2 (vadd D Q2) ≠ 0)
    (hC : offPlane D Q1 Q2 C ≠ 0) : triInt C P1 P2 D Q1 Q2 = true ↔ TriMeet C P1 P2 D Q1 Q2 := by
  refine ⟨C38_sound (fun h => hN (by rw [h]; rfl)), C38_complete_partial hN h0 h1 h2 hC⟩

/-- The hypotheses are met, by triangles that meet and by triangles that do not. -/
example : ∃ C P1 P2 D Q1 Q2 : Pt ℚ, vcross P1 P2 2 ≠ 0 ∧ offPlane C P1 P2 D ≠ 0 ∧ offPlane C P1 P2 (vadd D Q1) ≠ 0 ∧
    offPlane C P1 P2 (vadd D Q2) ≠ 0 ∧ offPlane D Q1 Q2 C ≠ 0 ∧ triInt C P1 P2 D Q1 Q2 = true :=
  ⟨pt3 0 0 0, pt3 4 0 0, pt3 0 4 0, pt3 1 1 (-1), pt3 0 0 2, pt3 1 0 2, by decide +kernel, by decide +kernel,
    by decide +kernel, by decide +kernel, by decide +kernel, by decide +kernel⟩
example : ∃ C P1 P2 D Q1 Q2 : Pt ℚ, vcross P1 P2 2 ≠ 0 ∧ offPlane C P1 P2 D ≠ 0 ∧ offPlane C P1 P2 (vadd D Q1) ≠ 0 ∧
    offPlane C P1 P2 (vadd D Q2) ≠ 0 ∧ offPlane D Q1 Q2 C ≠ 0 ∧ triInt C P1 P2 D Q1 Q2 = false :=
  ⟨pt3 0 0 0, pt3 4 0 0, pt3 0 4 0, pt3 7 1 (-1), pt3 0 0 2, pt3 1 0 2, by decide +kernel, by decide +kernel,
    by decide +kernel, by decide +kernel, by decide +kernel, by decide +kernel⟩

/-- The full C38 fails: triangle 1 in a vertical plane (the `yz` plane), cut through its inside by triangle 2, is
reported as disjoint, because only the `x` and `y` coordinates are looked at. -/
theorem C38_counterexample_vertical :
    TriMeet (pt3 0 0 0) (pt3 0 4 0) (pt3 0 0 4) (pt3 (-1) 1 1) (pt3 2 0 0) (pt3 2 (1/2) 0) ∧
    triInt (pt3 0 0 0) (pt3 0 4 0) (pt3 0 0 4) (pt3 (-1) 1 1) (pt3 2 0 0) (pt3 2 (1/2) 0) = false := by
  refine ⟨⟨pt3 0 1 1, ⟨1/4, 1/4, by norm_num, by norm_num, by norm_num, ?_⟩, ⟨1/2, 0, by norm_num, by norm_num, by norm_num, ?_⟩⟩, by decide +kernel⟩
  · exact fin3_all (by decide +kernel) (by decide +kernel) (by decide +kernel)
  · exact fin3_all (by decide +kernel) (by decide +kernel) (by decide +kernel)

/-- A corner of triangle 2 touching the inside of triangle 1 is not reported either. -/
theorem C38_counterexample_corner :
    TriMeet (pt3 0 0 0) (pt3 4 0 0) (pt3 0 4 0) (pt3 1 1 0) (pt3 0 0 2) (pt3 1 0 2) ∧
    triInt (pt3 0 0 0) (pt3 4 0 0) (pt3 0 4 0) (pt3 1 1 0) (pt3 0 0 2) (pt3 1 0 2) = false := by
  refine ⟨⟨pt3 1 1 0, ⟨1/4, 1/4, by norm_num, by norm_num, by norm_num, ?_⟩, ⟨0, 0, by norm_num, by norm_num, by norm_num, ?_⟩⟩, by decide +kernel⟩
  · exact fin3_all (by decide +kernel) (by decide +kernel) (by decide +kernel)
  · exact fin3_all (by decide +kernel) (by decide +kernel) (by decide +kernel)

/-- A degenerate triangle 1 (a segment along `z`) makes the test answer yes for triangles that do not meet. -/
theorem C38_counterexample_degenerate :
    ¬ TriMeet (pt3 0 0 0) (pt3 0 0 1) (pt3 0 0 2) (pt3 (-1) 5 0) (pt3 2 0 1) (pt3 0 3 3) ∧
    triInt (pt3 0 0 0) (pt3 0 0 1) (pt3 0 0 2) (pt3 (-1) 5 0) (pt3 2 0 1) (pt3 0 3 3) = true := by
  refine ⟨?_, by decide +kernel⟩
  rintro ⟨x, ⟨a, b, a0, b0, ab, e⟩, ⟨c, d, c0, d0, cd, e'⟩⟩
  have h1 := (e 1).symm.trans (e' 1)
  have : (0 : ℚ) = 5 + d * 3 := by
    have l : pt3 (0:ℚ) 0 0 1 + a * pt3 0 0 1 1 + b * pt3 0 0 2 1 = 0 := by simp
    have r : pt3 (-1:ℚ) 5 0 1 + c * pt3 2 0 1 1 + d * pt3 0 3 3 1 = 5 + d * 3 := by simp
    rw [l, r] at h1
    exact h1
  linarith

/-- The triangles in an array: corner and two edge vectors per triangle. -/
def arrMeet (d1 d2 : Nat → ℚ) (i j : Nat) : Prop :=
  TriMeet (ptAt d1 (9 * i)) (ptAt d1 (9 * i + 3)) (ptAt d1 (9 * i + 6)) (ptAt d2 (9 * j)) (ptAt d2 (9 * j + 3)) (ptAt d2 (9 * j + 6))

/-- The whole kernel answers yes exactly if the test says so for some pair: no pair is left out, however many. -/
theorem C38_single (d1 d2 : Nat → ℚ) (n1 n2 : Nat) :
    triIntSingle d1 d2 n1 n2 = true ↔ ∃ i < n1, ∃ j < n2, triPair d1 d2 i j = true := by
  unfold triIntSingle
  simp [List.any_eq_true]

/-- C38 for whole meshes, soundness: if the kernel answers yes and no triangle of the first mesh is degenerate,
some triangle of the first has a point in common with some triangle of the second. -/
theorem C38_mesh_sound (d1 d2 : Nat → ℚ) (n1 n2 : Nat)
    (hN : ∀ i < n1, vcross (ptAt d1 (9 * i + 3)) (ptAt d1 (9 * i + 6)) ≠ 0) (h : triIntSingle d1 d2 n1 n2 = true) :
    ∃ i < n1, ∃ j < n2, arrMeet d1 d2 i j := by
  obtain ⟨i, hi, j, hj, h⟩ := (C38_single d1 d2 n1 n2).1 h
  exact ⟨i, hi, j, hj, C38_sound (hN i hi) h⟩

/-- C38 for whole meshes: exact when every pair is in general position. -/
theorem C38_mesh_partial (d1 d2 : Nat → ℚ) (n1 n2 : Nat)
    (hg : ∀ i < n1, ∀ j < n2, vcross (ptAt d1 (9 * i + 3)) (ptAt d1 (9 * i + 6)) 2 ≠ 0 ∧
      offPlane (ptAt d1 (9 * i)) (ptAt d1 (9 * i + 3)) (ptAt d1 (9 * i + 6)) (ptAt d2 (9 * j)) ≠ 0 ∧
      offPlane (ptAt d1 (9 * i)) (ptAt d1 (9 * i + 3)) (ptAt d1 (9 * i + 6)) (vadd (ptAt d2 (9 * j)) (ptAt d2 (9 * j + 3))) ≠ 0 ∧
      offPlane (ptAt d1 (9 * i)) (ptAt d1 (9 * i + 3)) (ptAt d1 (9 * i + 6)) (vadd (ptAt d2 (9 * j)) (ptAt d2 (9 * j + 6))) ≠ 0 ∧
      offPlane (ptAt d2 (9 * j)) (ptAt d2 (9 * j + 3)) (ptAt d2 (9 * j + 6)) (ptAt d1 (9 * i)) ≠ 0) :
    triIntSingle d1 d2 n1 n2 = true ↔ ∃ i < n1, ∃ j < n2, arrMeet d1 d2 i j := by
  rw [C38_single]
  constructor
  · rintro ⟨i, hi, j, hj, h⟩
    obtain ⟨a, b, c, d, e⟩ := hg i hi j hj
    exact ⟨i, hi, j, hj, (C38_exact_partial a b c d e).1 h⟩
  · rintro ⟨i, hi, j, hj, h⟩
    obtain ⟨a, b, c, d, e⟩ := hg i hi j hj
    exact ⟨i, hi, j, hj, (C38_exact_partial a b c d e).2 h⟩

end TDP.Kernels
