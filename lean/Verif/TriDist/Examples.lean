import Verif.TriDist.Props
/-!
# C100: all inputs, several triangles, and counterexamples
-/
set_option linter.unusedSectionVars false
namespace TDP.TriDist
open TDP.Boxes

variable {K : Type} [Field K] [LinearOrder K] [IsStrictOrderedRing K]

/-- **C100 (every input).** A result other than 0 is the distance of two points of the triangles: the result is never too small unless it
is 0. -/
theorem C100_attained_partial (S T : Tri K) :
    triDist2 S T = ((0 : K) : WithTop K) ∨ ∃ x y, InTri S x ∧ InTri T y ∧ triDist2 S T = ((d2 x y : K) : WithTop K) := by
  have face : ∀ {U V : Tri K} {b : Bool} {d : K} {b' : Bool}, faceTest U V b = (some d, b') →
      ∃ x y, InTri U x ∧ InTri V y ∧ d = d2 x y := by
    intro U V b d b' h
    by_cases hl : eps < len U
    · cases hk : pick (fun k => tp U (V k)) with
      | none => rw [faceTest_none U V b hk] at h; simp at h
      | some k =>
        rw [faceTest_some U V b hl hk] at h
        by_cases hg : ∀ i, 0 < g U i (V k)
        · rw [if_pos hg] at h
          injection h with h _
          injection h with h
          obtain ⟨⟨x, y, hx, hy, e⟩, -⟩ := passes_exact (lt_trans eps_pos hl) hk hg
          exact ⟨x, y, hx, hy, by rw [← h, e]⟩
        · rw [if_neg hg] at h; simp at h
    · rw [faceTest_skip U V b (not_lt.1 hl)] at h; simp at h
  unfold triDist2 triDistSeg
  rcases segLoop_spec S T edgePairs ⊤ false with ⟨p, -, h1, -⟩ | ⟨m, sh, h1, -, h3, h4, -, -⟩
  · rw [h1]
    obtain ⟨o1, o2⟩ := pts_on S T p.1 p.2
    exact Or.inr ⟨_, _, o1.inTri, o2.inTri, rfl⟩
  · rw [h1]
    simp only
    cases hf : triDistOther S T sh with
    | mk o b =>
      cases o with
      | some d =>
        right
        have hd : ∃ x y, InTri S x ∧ InTri T y ∧ d = d2 x y := by
          unfold triDistOther at hf
          cases hs : faceTest S T sh with
          | mk o' b' =>
            rw [hs] at hf
            cases o' with
            | some d' =>
              injection hf with hf _
              injection hf with hf
              subst hf
              exact face hs
            | none =>
              obtain ⟨x, y, hx, hy, e⟩ := face hf
              exact ⟨y, x, hy, hx, by rw [e, d2_comm]⟩
        obtain ⟨x, y, hx, hy, e⟩ := hd
        exact ⟨x, y, hx, hy, by rw [e]⟩
      | none =>
        cases b with
        | false => exact Or.inl rfl
        | true =>
          right
          rcases h4 with h4 | ⟨p, -, h4⟩
          · have := h3 (0, 0) (mem_edgePairs _)
            rw [h4, top_le_iff] at this
            exact absurd this WithTop.coe_ne_top
          · obtain ⟨o1, o2⟩ := pts_on S T p.1 p.2
            exact ⟨_, _, o1.inTri, o2.inTri, h4⟩

/-- The conditions of `C100_exact_partial`. -/
def Good (S T : Tri K) : Prop :=
  (area2 S = 0 ∨ 1 / 10 ^ 15 < area2 S) ∧ (area2 T = 0 ∨ 1 / 10 ^ 15 < area2 T) ∧ EdgesRight S T

/-- **C100 (`float TriDist`, real numbers).** Under the conditions of `C100_exact_partial`, the square root is the least of all distances of a
point of `S` and a point of `T`. -/
theorem C100_real_partial (S T : Tri ℝ) (h : Good S T) :
    ∃ m : ℝ, triDist2 S T = (m : WithTop ℝ) ∧ IsLeast {d | ∃ x y, InTri S x ∧ InTri T y ∧ d = Real.sqrt (d2 x y)} (Real.sqrt m) := by
  obtain ⟨m, e, ⟨x, y, hx, hy, he⟩, hl⟩ := C100_exact_partial S T h.1 h.2.1 h.2.2
  refine ⟨m, e, ⟨x, y, hx, hy, by rw [he]⟩, ?_⟩
  rintro d ⟨x', y', hx', hy', rfl⟩
  exact Real.sqrt_le_sqrt (hl x' y' hx' hy')

theorem foldl_min {ι : Type} (f : ι → WithTop K) : ∀ (l : List ι) (m : WithTop K),
    l.foldl (fun m j => if f j < m then f j else m) m ≤ m ∧ (∀ j ∈ l, l.foldl (fun m j => if f j < m then f j else m) m ≤ f j) ∧
    (l.foldl (fun m j => if f j < m then f j else m) m = m ∨ ∃ j ∈ l, l.foldl (fun m j => if f j < m then f j else m) m = f j)
  | [], m => ⟨le_refl _, by simp, Or.inl rfl⟩
  | a :: l, m => by
    obtain ⟨h1, h2, h3⟩ := foldl_min f l (if f a < m then f a else m)
    rw [List.foldl_cons]
    have ha : (if f a < m then f a else m) ≤ f a ∧ (if f a < m then f a else m) ≤ m := by
      split
      · next h => exact ⟨le_refl _, le_of_lt h⟩
      · next h => exact ⟨not_lt.1 h, le_refl _⟩
    refine ⟨le_trans h1 ha.2, ?_, ?_⟩
    · intro j hj
      rcases List.mem_cons.1 hj with rfl | hj
      · exact le_trans h1 ha.1
      · exact h2 j hj
    · rcases h3 with h3 | ⟨j, hj, h3⟩
      · rw [h3]
        split
        · exact Or.inr ⟨a, by simp, rfl⟩
        · exact Or.inl rfl
      · exact Or.inr ⟨j, by simp [hj], h3⟩

/-- `TriDist_single` is the smallest result of `TriDist` for a triangle of the first and a triangle of the second array. -/
theorem single_min (d1 d2 : Nat → K) (n1 n2 : Nat) :
    (∀ i < n1, ∀ j < n2, triDist2Single d1 d2 n1 n2 ≤ triDist2 (triAt d1 i) (triAt d2 j)) ∧
    (triDist2Single d1 d2 n1 n2 = ⊤ ∨ ∃ i < n1, ∃ j < n2, triDist2Single d1 d2 n1 n2 = triDist2 (triAt d1 i) (triAt d2 j)) := by
  unfold triDist2Single
  have outer : ∀ (l : List Nat) (m : WithTop K),
      let r := l.foldl (fun m i => (List.range n2).foldl (fun m j =>
        if triDist2 (triAt d1 i) (triAt d2 j) < m then triDist2 (triAt d1 i) (triAt d2 j) else m) m) m
      r ≤ m ∧ (∀ i ∈ l, ∀ j < n2, r ≤ triDist2 (triAt d1 i) (triAt d2 j)) ∧
      (r = m ∨ ∃ i ∈ l, ∃ j < n2, r = triDist2 (triAt d1 i) (triAt d2 j)) := by
    intro l
    induction l with
    | nil => intro m; exact ⟨le_refl _, by simp, Or.inl rfl⟩
    | cons a l ih =>
      intro m
      obtain ⟨f1, f2, f3⟩ := foldl_min (fun j => triDist2 (triAt d1 a) (triAt d2 j)) (List.range n2) m
      obtain ⟨h1, h2, h3⟩ := ih ((List.range n2).foldl (fun m j =>
        if triDist2 (triAt d1 a) (triAt d2 j) < m then triDist2 (triAt d1 a) (triAt d2 j) else m) m)
      refine ⟨le_trans h1 f1, ?_, ?_⟩
      · intro i hi j hj
        rcases List.mem_cons.1 hi with rfl | hi
        · exact le_trans h1 (f2 j (List.mem_range.2 hj))
        · exact h2 i hi j hj
      · rcases h3 with h3 | ⟨i, hi, j, hj, h3⟩
        · rcases f3 with f3 | ⟨j, hj, f3⟩
          · exact Or.inl (h3.trans f3)
          · exact Or.inr ⟨a, by simp, j, List.mem_range.1 hj, h3.trans f3⟩
        · exact Or.inr ⟨i, by simp [hi], j, hj, h3⟩
  obtain ⟨-, h2, h3⟩ := outer (List.range n1) ⊤
  refine ⟨fun i hi j hj => h2 i (List.mem_range.2 hi) j hj, ?_⟩
  rcases h3 with h3 | ⟨i, hi, j, hj, h3⟩
  · exact Or.inl h3
  · exact Or.inr ⟨i, List.mem_range.1 hi, j, hj, h3⟩

/-- The first `n` triangles of an array are `t 0, t 1, ...`: nine numbers each, corner by corner. -/
def HoldsTris (d : Nat → K) (n : Nat) (t : Nat → Tri K) : Prop := ∀ i < n, ∀ k c : Fin 3, d (9 * i + 3 * k.val + c.val) = t i k c

theorem HoldsTris.triAt {d : Nat → K} {n : Nat} {t : Nat → Tri K} (h : HoldsTris d n t) {i : Nat} (hi : i < n) : triAt d i = t i := by
  funext k c
  have := h i hi k c
  fin_cases c <;> exact this

/-- **C100 (two sets of triangles).** Under the same conditions for every pair, `TriDist_single` returns the distance of the two sets. -/
theorem C100_sets_partial (d1 d2 : Nat → K) (n1 n2 : Nat) (t1 t2 : Nat → Tri K) (e1 : HoldsTris d1 n1 t1) (e2 : HoldsTris d2 n2 t2)
    (h1 : 0 < n1) (h2 : 0 < n2) (hg : ∀ i < n1, ∀ j < n2, Good (t1 i) (t2 j)) :
    ∃ m : K, triDist2Single d1 d2 n1 n2 = (m : WithTop K) ∧
      (∃ i < n1, ∃ j < n2, ∃ x y, InTri (t1 i) x ∧ InTri (t2 j) y ∧ TriDist.d2 x y = m) ∧
      ∀ i < n1, ∀ j < n2, ∀ x y, InTri (t1 i) x → InTri (t2 j) y → m ≤ TriDist.d2 x y := by
  obtain ⟨hle, hat⟩ := single_min d1 d2 n1 n2
  have ex : ∀ i < n1, ∀ j < n2, ∃ m : K, triDist2 (triAt d1 i) (triAt d2 j) = (m : WithTop K) ∧ IsTriDist2 (t1 i) (t2 j) m := by
    intro i hi j hj
    rw [e1.triAt hi, e2.triAt hj]
    exact C100_exact_partial _ _ (hg i hi j hj).1 (hg i hi j hj).2.1 (hg i hi j hj).2.2
  rcases hat with hat | ⟨i, hi, j, hj, hat⟩
  · obtain ⟨m, e, -⟩ := ex 0 h1 0 h2
    have := hle 0 h1 0 h2
    rw [hat, e, top_le_iff] at this
    exact absurd this WithTop.coe_ne_top
  · obtain ⟨m, e, ⟨x, y, hx, hy, he⟩, -⟩ := ex i hi j hj
    refine ⟨m, hat.trans e, ⟨i, hi, j, hj, x, y, hx, hy, he⟩, ?_⟩
    intro i' hi' j' hj' x' y' hx' hy'
    obtain ⟨m', e', -, hl'⟩ := ex i' hi' j' hj'
    have := hle i' hi' j' hj'
    rw [hat, e, e', WithTop.coe_le_coe] at this
    exact le_trans this (hl' x' y' hx' hy')

/-! ## A test for the conditions -/

/-- The four inequalities that make `X` and `Y` nearest points of two segments. -/
def endsOk (P A Q B X Y : Pt K) : Prop :=
  dot (P - X) (Y - X) ≤ 0 ∧ dot (P + A - X) (Y - X) ≤ 0 ∧ 0 ≤ dot (Q - Y) (Y - X) ∧ 0 ≤ dot (Q + B - Y) (Y - X)

instance (P A Q B X Y : Pt K) : Decidable (endsOk P A Q B X Y) := inferInstanceAs (Decidable (_ ∧ _ ∧ _ ∧ _))

/-- `EdgesRight` from finitely many inequalities. -/
theorem edgesRight_of {S T : Tri K} (h : ∀ i j, endsOk (S i) (side S i) (T j) (side T j) (pts S T i j).x (pts S T i j).y) :
    EdgesRight S T := by
  intro i j s v s0 s1 v0 v1
  obtain ⟨h1, h2, h3, h4⟩ := h i j
  apply slab
  · have e : dot (S i + s • (S (i + 1) - S i) - (pts S T i j).x) ((pts S T i j).y - (pts S T i j).x) =
      (1 - s) * dot (S i - (pts S T i j).x) ((pts S T i j).y - (pts S T i j).x) +
        s * dot (S i + side S i - (pts S T i j).x) ((pts S T i j).y - (pts S T i j).x) := by
      simp only [side, dot, Pi.add_apply, Pi.sub_apply, Pi.smul_apply, smul_eq_mul]; ring
    rw [e]
    nlinarith [mul_nonpos_of_nonneg_of_nonpos (sub_nonneg.2 s1) h1, mul_nonpos_of_nonneg_of_nonpos s0 h2]
  · have e : dot (T j + v • (T (j + 1) - T j) - (pts S T i j).y) ((pts S T i j).y - (pts S T i j).x) =
      (1 - v) * dot (T j - (pts S T i j).y) ((pts S T i j).y - (pts S T i j).x) +
        v * dot (T j + side T j - (pts S T i j).y) ((pts S T i j).y - (pts S T i j).x) := by
      simp only [side, dot, Pi.add_apply, Pi.sub_apply, Pi.smul_apply, smul_eq_mul]; ring
    rw [e]
    nlinarith [mul_nonneg (sub_nonneg.2 v1) h3, mul_nonneg v0 h4]

/-! ## Counterexamples -/

/-- A triangle from nine numbers. -/
def tri9 (a b c d e f g h i : ℚ) : Tri ℚ
  | 0 => pt3 a b c
  | 1 => pt3 d e f
  | 2 => pt3 g h i

set_option maxRecDepth 100000

theorem inTri_of (S : Tri ℚ) (a b c : ℚ) (h : 0 ≤ a ∧ 0 ≤ b ∧ 0 ≤ c ∧ a + b + c = 1) : InTri S (comb S (pt3 a b c)) := by
  refine ⟨_, ⟨fun i => ?_, h.2.2.2⟩, rfl⟩
  fin_cases i
  · exact h.1
  · exact h.2.1
  · exact h.2.2.1

/-- **C100 (too large).** Two triangles (areas not small) with points at squared distance 3/4; the result is 1. -/
theorem C100_too_large :
    let S := tri9 0 0 2 0 0 0 2 0 2; let T := tri9 (-1) (-1) 0 1 0 (-2) 0 0 (-1)
    1 ≤ area2 S ∧ 1 ≤ area2 T ∧ triDist2 S T = ((1 : ℚ) : WithTop ℚ) ∧ ∃ x y, InTri S x ∧ InTri T y ∧ d2 x y = 3 / 4 := by
  refine ⟨by decide +kernel, by decide +kernel, by decide +kernel, _, _, inTri_of _ 0 1 0 (by decide +kernel),
    inTri_of _ (1 / 2) 0 (1 / 2) (by decide +kernel), by decide +kernel⟩

/-- **C100 (intersecting triangles kept apart).** Two triangles with a common point; the result is 2 (squared). -/
theorem C100_overlap_missed :
    let S := tri9 2 (-1) 0 2 0 (-1) (-2) (-1) (-1); let T := tri9 2 1 (-2) 0 (-1) (-1) 0 2 (-1)
    1 ≤ area2 S ∧ 1 ≤ area2 T ∧ triDist2 S T = ((2 : ℚ) : WithTop ℚ) ∧ ∃ z, InTri S z ∧ InTri T z := by
  refine ⟨by decide +kernel, by decide +kernel, by decide +kernel, _, inTri_of _ 0 (1 / 2) (1 / 2) (by decide +kernel), ?_⟩
  have e : comb (tri9 2 (-1) 0 2 0 (-1) (-2) (-1) (-1)) (pt3 0 (1 / 2) (1 / 2)) =
      comb (tri9 2 1 (-2) 0 (-1) (-1) 0 2 (-1)) (pt3 0 (5 / 6) (1 / 6)) := by
    apply vec_ext <;> decide +kernel
  rw [e]
  exact inTri_of _ _ _ _ (by decide +kernel)

/-- A linear form that is at most `c` on the corners is at most `c` on the triangle. -/
theorem form_le (S : Tri ℚ) (n : Pt ℚ) (c : ℚ) (h : ∀ i, dot (S i) n ≤ c) {z : Pt ℚ} (hz : InTri S z) : dot z n ≤ c := by
  obtain ⟨w, hw, rfl⟩ := hz
  have e : dot (comb S w) n = w 0 * dot (S 0) n + w 1 * dot (S 1) n + w 2 * dot (S 2) n := by
    simp only [comb, dot_add_left, dot_smul_left]
  rw [e]
  have := mul_le_mul_of_nonneg_left (h 0) (hw.1 0)
  have := mul_le_mul_of_nonneg_left (h 1) (hw.1 1)
  have := mul_le_mul_of_nonneg_left (h 2) (hw.1 2)
  have e1 : c = w 0 * c + w 1 * c + w 2 * c := by linear_combination (-c) * hw.2
  linarith

/-- **C100 (separate triangles taken as intersecting).** No common point; the result is 0. -/
theorem C100_false_overlap :
    let S := tri9 0 1 0 (-2) 0 (-1) (-2) 0 (-2); let T := tri9 (-1) (-1) 1 2 2 1 (-1) 0 0
    1 ≤ area2 S ∧ 1 ≤ area2 T ∧ triDist2 S T = ((0 : ℚ) : WithTop ℚ) ∧ ¬ ∃ z, InTri S z ∧ InTri T z := by
  refine ⟨by decide +kernel, by decide +kernel, by decide +kernel, ?_⟩
  rintro ⟨z, h1, h2⟩
  have a := form_le _ (pt3 (-1) 0 3) 0 (by decide +kernel) h1
  have b := form_le _ (pt3 1 0 (-3)) (-1) (by decide +kernel) h2
  have e : dot z (pt3 1 0 (-3)) = -dot z (pt3 (-1) 0 3) := by
    simp only [dot, pt3]; ring
  rw [e] at b
  linarith

/-- A triangle in the plane and one standing on its point above it, in units of `u`. -/
def flat (u : ℚ) : Tri ℚ := tri9 0 0 0 (10 * u) 0 0 0 (10 * u) 0
/-- A triangle in the plane and one standing on its point above it, in units of `u`. -/
def above (u : ℚ) : Tri ℚ := tri9 (2 * u) (2 * u) u (2 * u) (3 * u) (5 * u) (3 * u) (2 * u) (5 * u)

/-- **C100 (small triangles).** A corner above the inside of a triangle, at distance `u`. All edge pairs are right at both sizes. With
`u = 1` the result is right; with `u = 1e-5` the result is 0, although the triangles have no common point. -/
theorem C100_small :
    (EdgesRight (flat 1) (above 1) ∧ triDist2 (flat 1) (above 1) = ((1 : ℚ) : WithTop ℚ) ∧ IsTriDist2 (flat 1) (above 1) 1) ∧
    (EdgesRight (flat (1 / 10 ^ 5)) (above (1 / 10 ^ 5)) ∧ triDist2 (flat (1 / 10 ^ 5)) (above (1 / 10 ^ 5)) = ((0 : ℚ) : WithTop ℚ) ∧
      ¬ ∃ z, InTri (flat (1 / 10 ^ 5)) z ∧ InTri (above (1 / 10 ^ 5)) z) := by
  have e1 : EdgesRight (flat 1) (above 1) := edgesRight_of (by decide +kernel)
  have t1 : triDist2 (flat 1) (above 1) = ((1 : ℚ) : WithTop ℚ) := by decide +kernel
  refine ⟨⟨e1, t1, ?_⟩, edgesRight_of (by decide +kernel), by decide +kernel, ?_⟩
  · obtain ⟨m, h1, h2⟩ := C100_exact_partial (flat 1) (above 1) (Or.inr (by decide +kernel)) (Or.inr (by decide +kernel)) e1
    rw [t1] at h1
    exact by
      have hm : m = 1 := (WithTop.coe_injective h1).symm
      subst hm
      exact h2
  · rintro ⟨z, h1, h2⟩
    have a := form_le _ (pt3 0 0 1) 0 (by decide +kernel) h1
    have b := form_le _ (pt3 0 0 (-1)) (-(1 / 10 ^ 5)) (by decide +kernel) h2
    have e : dot z (pt3 0 0 (-1)) = -dot z (pt3 0 0 1) := by
      simp only [dot, pt3]; ring
    rw [e] at b
    have : (0 : ℚ) < 1 / 10 ^ 5 := by norm_num
    linarith

/-- `C100_exact_partial` and `C100_sets_partial` apply to the two triangles of size 1, and to an edge crossing the inside of a triangle. -/
example : Good (flat 1) (above 1) := ⟨Or.inr (by decide +kernel), Or.inr (by decide +kernel), edgesRight_of (by decide +kernel)⟩
example : Good (flat 1) (tri9 2 2 (-4) 2 2 4 3 3 6) ∧ triDist2 (flat 1) (tri9 2 2 (-4) 2 2 4 3 3 6) = ((0 : ℚ) : WithTop ℚ) :=
  ⟨⟨Or.inr (by decide +kernel), Or.inr (by decide +kernel), edgesRight_of (by decide +kernel)⟩, by decide +kernel⟩
/-- Arrays holding them. -/
example : HoldsTris (fun x => flat 1 ⟨x / 3 % 3, Nat.mod_lt _ (by decide)⟩ ⟨x % 3, Nat.mod_lt _ (by decide)⟩) 1 (fun _ => flat 1) := by
  intro i hi k c
  obtain rfl : i = 0 := by omega
  fin_cases k <;> fin_cases c <;> rfl

end TDP.TriDist
