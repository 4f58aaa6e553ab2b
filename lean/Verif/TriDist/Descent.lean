import Verif.TriDist.Face
/-!
# From any two points to two edges, to a face test that passes, or to a common point
-/
set_option linter.unusedSectionVars false
namespace TDP.TriDist
open TDP.Boxes

variable {K : Type} [Field K] [LinearOrder K] [IsStrictOrderedRing K]

/-- The corner chosen by the face test of `U` lies strictly above the face. -/
def Passes (U V : Tri K) : Prop := ∃ k, pick (fun k => tp U (V k)) = some k ∧ ∀ i, 0 < g U i (V k)

/-- `S` and `T` have a common point. -/
def Common (S T : Tri K) : Prop := ∃ z, InTri S z ∧ InTri T z

theorem Common.symm {S T : Tri K} (h : Common S T) : Common T S := by
  obtain ⟨z, h1, h2⟩ := h
  exact ⟨z, h2, h1⟩

theorem pick_some {p : Fin 3 → K} {k : Fin 3} (h : pick p = some k) : ∀ j, 0 < p j * p k ∧ p k ^ 2 ≤ p j * p k := by
  have main : (∀ j, 0 < p j ∧ p k ≤ p j) ∨ (∀ j, p j < 0 ∧ p j ≤ p k) := by
    unfold pick at h
    split at h
    · next hp =>
      left
      obtain ⟨h0, h1, h2⟩ := hp
      simp only at h
      injection h with h
      subst h
      intro j
      by_cases c1 : p 0 < p 1
      · simp only [if_pos c1]
        by_cases c2 : p 2 < p 0
        · simp only [if_pos c2]; fin_cases j <;> simp <;> (try constructor) <;> linarith
        · simp only [if_neg c2]; fin_cases j <;> simp <;> (try constructor) <;> linarith
      · simp only [if_neg c1]
        by_cases c2 : p 2 < p 1
        · simp only [if_pos c2]; fin_cases j <;> simp <;> (try constructor) <;> linarith
        · simp only [if_neg c2]; fin_cases j <;> simp <;> (try constructor) <;> linarith
    · split at h
      · next hp =>
        right
        obtain ⟨h0, h1, h2⟩ := hp
        simp only at h
        injection h with h
        subst h
        intro j
        by_cases c1 : p 0 > p 1
        · simp only [if_pos c1]
          by_cases c2 : p 2 > p 0
          · simp only [if_pos c2]; fin_cases j <;> simp <;> (try constructor) <;> linarith
          · simp only [if_neg c2]; fin_cases j <;> simp <;> (try constructor) <;> linarith
        · simp only [if_neg c1]
          by_cases c2 : p 2 > p 1
          · simp only [if_pos c2]; fin_cases j <;> simp <;> (try constructor) <;> linarith
          · simp only [if_neg c2]; fin_cases j <;> simp <;> (try constructor) <;> linarith
      · exact absurd h (by simp)
  intro j
  rcases main with h | h
  · have hk := (h k).1
    obtain ⟨a, b⟩ := h j
    exact ⟨mul_pos a hk, by nlinarith⟩
  · have hk := (h k).1
    obtain ⟨a, b⟩ := h j
    exact ⟨mul_pos_of_neg_of_neg a hk, by nlinarith⟩

theorem pick_none {p : Fin 3 → K} (h : pick p = none) (c : K) : ∃ j, p j * c ≤ 0 := by
  unfold pick at h
  split at h
  · exact absurd h (by simp)
  · next h1 =>
    split at h
    · exact absurd h (by simp)
    · next h2 =>
      obtain ⟨a, ha⟩ : ∃ a, p a ≤ 0 := by
        by_contra hc
        push Not at hc
        exact h1 ⟨hc 0, hc 1, hc 2⟩
      obtain ⟨b, hb⟩ : ∃ b, 0 ≤ p b := by
        by_contra hc
        push Not at hc
        exact h2 ⟨hc 0, hc 1, hc 2⟩
      rcases le_total 0 c with hc | hc
      · exact ⟨a, mul_nonpos_of_nonpos_of_nonneg ha hc⟩
      · exact ⟨b, mul_nonpos_of_nonneg_of_nonpos hb hc⟩

theorem tp_comb (U V : Tri K) (w : Fin 3 → K) (h : w 0 + w 1 + w 2 = 1) :
    tp U (comb V w) = w 0 * tp U (V 0) + w 1 * tp U (V 1) + w 2 * tp U (V 2) := by
  have e : tp U (comb V w) = (w 0 + w 1 + w 2) * dot (U 0) (nrm U) - dot (comb V w) (nrm U) := by
    rw [h]; simp only [tp, dot_sub_left, one_mul]
  rw [e]
  simp only [tp, comb, dot_sub_left, dot_add_left, dot_smul_left]; ring

/-- `A = p * q > 0` and `q² ≤ p * q` give `q * p ≤ p²`. -/
theorem nearer {p q : K} (h0 : 0 < p * q) (h1 : q ^ 2 ≤ p * q) : q * p ≤ p ^ 2 := by
  have hq : q ≠ 0 := by rintro rfl; simp at h0
  have hq2 : 0 < q ^ 2 := by positivity
  have : q ^ 2 * (q * p) ≤ q ^ 2 * p ^ 2 := by nlinarith
  exact le_of_mul_le_mul_left this hq2

/-- `y` in `T` above the face of `S`. -/
theorem descend_face {S T : Tri K} (h : 0 < len S) {y : Pt K} (hy : InTri T y) (hg : ∀ i, 0 < g S i y) :
    Common S T ∨ Passes S T ∨ ∃ x y', OnEdge S x ∧ InTri T y' ∧ d2 x y' ≤ tp S y ^ 2 / len S := by
  have go : ∀ k, tp S (T k) * tp S y ≤ tp S y ^ 2 → (Common S T ∨ ∃ x y', OnEdge S x ∧ InTri T y' ∧ d2 x y' ≤ tp S y ^ 2 / len S) ∨
      ((∀ i, 0 < g S i (T k)) ∧ 0 < tp S (T k) * tp S y) := by
    intro k hk
    rcases walk h hg hk with ⟨r, x, r0, r1, hx, hd⟩ | ⟨r, r0, r1, hi⟩ | h3
    · exact Or.inl (Or.inr ⟨x, _, hx, inTri_line hy (inTri_corner T k) r0 r1, hd⟩)
    · exact Or.inl (Or.inl ⟨_, hi, inTri_line hy (inTri_corner T k) r0 r1⟩)
    · exact Or.inr h3
  cases hp : pick (fun k => tp S (T k)) with
  | none =>
    obtain ⟨k, hk⟩ := pick_none hp (tp S y)
    rcases go k (le_trans hk (by positivity)) with (h1 | h1) | h1
    · exact Or.inl h1
    · exact Or.inr (Or.inr h1)
    · exact absurd h1.2 (not_lt.2 hk)
  | some q =>
    have hs := pick_some hp
    have hle : tp S (T q) * tp S y ≤ tp S y ^ 2 := by
      obtain ⟨v, hv, rfl⟩ := hy
      have e : tp S (comb T v) * tp S (T q) = v 0 * (tp S (T 0) * tp S (T q)) + v 1 * (tp S (T 1) * tp S (T q)) + v 2 * (tp S (T 2) * tp S (T q)) := by
        rw [tp_comb S T v hv.2]; ring
      have hq2 : tp S (T q) ^ 2 ≤ tp S (comb T v) * tp S (T q) := by
        rw [e]
        have := mul_le_mul_of_nonneg_left (hs 0).2 (hv.1 0)
        have := mul_le_mul_of_nonneg_left (hs 1).2 (hv.1 1)
        have := mul_le_mul_of_nonneg_left (hs 2).2 (hv.1 2)
        have e1 : tp S (T q) ^ 2 = v 0 * tp S (T q) ^ 2 + v 1 * tp S (T q) ^ 2 + v 2 * tp S (T q) ^ 2 := by
          linear_combination (-tp S (T q) ^ 2) * hv.2
        linarith
      have hpos : 0 < tp S (comb T v) * tp S (T q) := by
        have hq : tp S (T q) ≠ 0 := by
          intro hz
          have := (hs q).1
          simp only [hz, mul_zero, lt_irrefl] at this
        exact lt_of_lt_of_le (by positivity) hq2
      exact nearer hpos hq2
    rcases go q hle with (h1 | h1) | h1
    · exact Or.inl h1
    · exact Or.inr (Or.inr h1)
    · exact Or.inr (Or.inl ⟨q, hp, h1.1⟩)

/-- From a corner above the face, along the edges. -/
theorem descend_corner {U V : Tri K} (h : 0 < len U) {e : Fin 3} (hg : ∀ i, 0 < g U i (V e)) :
    Common U V ∨ Passes U V ∨ ∃ x y, OnEdge U x ∧ OnEdge V y ∧ d2 x y ≤ tp U (V e) ^ 2 / len U := by
  have edge : ∀ (k : Fin 3) (r : K), 0 ≤ r → r ≤ 1 → OnEdge V (V e + r • (V k - V e)) := by
    intro k r r0 r1
    refine ⟨fun i => corner e i + r * (corner k i - corner e i), weights_line (corner_weights e) (corner_weights k) r0 r1, ?_, ?_⟩
    · fin_cases e <;> fin_cases k
      · exact ⟨1, by simp [corner]⟩
      · exact ⟨2, by simp [corner]⟩
      · exact ⟨1, by simp [corner]⟩
      · exact ⟨2, by simp [corner]⟩
      · exact ⟨0, by simp [corner]⟩
      · exact ⟨0, by simp [corner]⟩
      · exact ⟨1, by simp [corner]⟩
      · exact ⟨0, by simp [corner]⟩
      · exact ⟨0, by simp [corner]⟩
    · rw [← comb_line, comb_corner, comb_corner]
  have go : ∀ k, tp U (V k) * tp U (V e) ≤ tp U (V e) ^ 2 → (Common U V ∨ ∃ x y, OnEdge U x ∧ OnEdge V y ∧ d2 x y ≤ tp U (V e) ^ 2 / len U) ∨
      ((∀ i, 0 < g U i (V k)) ∧ 0 < tp U (V k) * tp U (V e)) := by
    intro k hk
    rcases walk h hg hk with ⟨r, x, r0, r1, hx, hd⟩ | ⟨r, r0, r1, hi⟩ | h3
    · exact Or.inl (Or.inr ⟨x, _, hx, edge k r r0 r1, hd⟩)
    · exact Or.inl (Or.inl ⟨_, hi, (edge k r r0 r1).inTri⟩)
    · exact Or.inr h3
  cases hp : pick (fun k => tp U (V k)) with
  | none =>
    obtain ⟨k, hk⟩ := pick_none hp (tp U (V e))
    rcases go k (le_trans hk (by positivity)) with (h1 | h1) | h1
    · exact Or.inl h1
    · exact Or.inr (Or.inr h1)
    · exact absurd h1.2 (not_lt.2 hk)
  | some q =>
    have hs := pick_some hp e
    rcases go q (nearer hs.1 hs.2) with (h1 | h1) | h1
    · exact Or.inl h1
    · exact Or.inr (Or.inr h1)
    · exact Or.inr (Or.inl ⟨q, hp, h1.1⟩)

/-- From a point of an edge above the face, along the edges. -/
theorem descend_edge {U V : Tri K} (h : 0 < len U) {x : Pt K} (hx : OnEdge V x) (hg : ∀ i, 0 < g U i x) :
    Common U V ∨ Passes U V ∨ ∃ u y, OnEdge U u ∧ OnEdge V y ∧ d2 u y ≤ tp U x ^ 2 / len U := by
  obtain ⟨w, hw, ⟨i, hi⟩, rfl⟩ := hx
  obtain ⟨e, hei, he⟩ : ∃ e, e ≠ i ∧ tp U (V e) * tp U (comb V w) ≤ tp U (comb V w) ^ 2 := by
    by_contra hc
    push Not at hc
    have ht := tp_comb U V w hw.2
    have hs : w 0 * (tp U (V 0) * tp U (comb V w) - tp U (comb V w) ^ 2) + w 1 * (tp U (V 1) * tp U (comb V w) - tp U (comb V w) ^ 2) +
        w 2 * (tp U (V 2) * tp U (comb V w) - tp U (comb V w) ^ 2) = 0 := by
      linear_combination (-tp U (comb V w)) * ht - tp U (comb V w) ^ 2 * hw.2
    have h0 := hw.1 0
    have h1 := hw.1 1
    have h2 := hw.1 2
    have hsum := hw.2
    fin_cases i
    · have hi : w 0 = 0 := hi
      have c1 := sub_pos.2 (hc 1 (by decide))
      have c2 := sub_pos.2 (hc 2 (by decide))
      rw [hi] at hs hsum
      generalize tp U (V 1) * tp U (comb V w) - tp U (comb V w) ^ 2 = p at *
      generalize tp U (V 2) * tp U (comb V w) - tp U (comb V w) ^ 2 = q at *
      have e : w 1 = 1 - w 2 := by linarith
      rw [e] at hs h1
      rcases lt_or_eq_of_le h2 with h2 | h2
      · nlinarith [mul_pos h2 c2, mul_nonneg h1 (le_of_lt c1)]
      · rw [← h2] at hs; linarith
    · have hi : w 1 = 0 := hi
      have c1 := sub_pos.2 (hc 0 (by decide))
      have c2 := sub_pos.2 (hc 2 (by decide))
      rw [hi] at hs hsum
      generalize tp U (V 0) * tp U (comb V w) - tp U (comb V w) ^ 2 = p at *
      generalize tp U (V 2) * tp U (comb V w) - tp U (comb V w) ^ 2 = q at *
      have e : w 0 = 1 - w 2 := by linarith
      rw [e] at hs h0
      rcases lt_or_eq_of_le h2 with h2 | h2
      · nlinarith [mul_pos h2 c2, mul_nonneg h0 (le_of_lt c1)]
      · rw [← h2] at hs; linarith
    · have hi : w 2 = 0 := hi
      have c1 := sub_pos.2 (hc 0 (by decide))
      have c2 := sub_pos.2 (hc 1 (by decide))
      rw [hi] at hs hsum
      generalize tp U (V 0) * tp U (comb V w) - tp U (comb V w) ^ 2 = p at *
      generalize tp U (V 1) * tp U (comb V w) - tp U (comb V w) ^ 2 = q at *
      have e : w 0 = 1 - w 1 := by linarith
      rw [e] at hs h0
      rcases lt_or_eq_of_le h1 with h1 | h1
      · nlinarith [mul_pos h1 c2, mul_nonneg h0 (le_of_lt c1)]
      · rw [← h1] at hs; linarith
  have edge : ∀ r : K, 0 ≤ r → r ≤ 1 → OnEdge V (comb V w + r • (V e - comb V w)) := by
    intro r r0 r1
    refine ⟨fun j => w j + r * (corner e j - w j), weights_line hw (corner_weights e) r0 r1, ⟨i, ?_⟩, ?_⟩
    · show w i + r * (corner e i - w i) = 0
      rw [hi, corner, if_neg (Ne.symm hei)]; ring
    · rw [← comb_line, comb_corner]
  rcases walk h hg he with ⟨r, u, r0, r1, hu, hd⟩ | ⟨r, r0, r1, hc⟩ | ⟨h3, h4⟩
  · exact Or.inr (Or.inr ⟨u, _, hu, edge r r0 r1, hd⟩)
  · exact Or.inl ⟨_, hc, (edge r r0 r1).inTri⟩
  · have hle : tp U (V e) ^ 2 ≤ tp U (comb V w) ^ 2 := by
      generalize tp U (V e) = a at *
      generalize tp U (comb V w) = b at *
      have hb : b ≠ 0 := by rintro rfl; simp at h4
      have hb2 : 0 < b ^ 2 := by positivity
      have : b ^ 2 * a ^ 2 ≤ b ^ 2 * b ^ 2 := by nlinarith
      exact le_of_mul_le_mul_left this hb2
    rcases descend_corner h h3 with h1 | h1 | ⟨u, y, h1, h2, h5⟩
    · exact Or.inl h1
    · exact Or.inr (Or.inl h1)
    · exact Or.inr (Or.inr ⟨u, y, h1, h2, le_trans h5 (div_le_div_of_nonneg_right hle (le_of_lt h))⟩)

/-- From any two points: a common point, a face test that passes, or two points of edges that are not farther from each other. -/
theorem descent {S T : Tri K} {x y : Pt K} (hx : InTri S x) (hy : InTri T y) :
    Common S T ∨ (0 < len S ∧ Passes S T) ∨ (0 < len T ∧ Passes T S) ∨
    ∃ x' y', OnEdge S x' ∧ OnEdge T y' ∧ d2 x' y' ≤ d2 x y := by
  -- first to an edge of `S`
  have first : Common S T ∨ (0 < len S ∧ Passes S T) ∨ ∃ x' y', OnEdge S x' ∧ InTri T y' ∧ d2 x' y' ≤ d2 x y := by
    rcases lt_or_eq_of_le (dot_self_nonneg (nrm S)) with h | h
    · have h : 0 < len S := h
      rcases toward_proj h hx y with ⟨x', h1, h2⟩ | ⟨h1, h2⟩
      · exact Or.inr (Or.inr ⟨x', y, h1, hy, h2⟩)
      · rcases descend_face h hy h1 with h3 | h3 | ⟨x', y', h3, h4, h5⟩
        · exact Or.inl h3
        · exact Or.inr (Or.inl ⟨h, h3⟩)
        · exact Or.inr (Or.inr ⟨x', y', h3, h4, le_trans h5 h2⟩)
    · exact Or.inr (Or.inr ⟨x, y, onEdge_of_degenerate h.symm hx, hy, le_refl _⟩)
  rcases first with h | h | ⟨x', y', h1, h2, h3⟩
  · exact Or.inl h
  · exact Or.inr (Or.inl h)
  · rcases lt_or_eq_of_le (dot_self_nonneg (nrm T)) with h | h
    · have h : 0 < len T := h
      rcases toward_proj h h2 x' with ⟨u, h4, h5⟩ | ⟨h4, h5⟩
      · refine Or.inr (Or.inr (Or.inr ⟨x', u, h1, h4, le_trans ?_ h3⟩))
        rw [d2_comm x' u, d2_comm x' y']
        exact h5
      · rcases descend_edge h h1 h4 with h6 | h6 | ⟨u, v, h6, h7, h8⟩
        · exact Or.inl h6.symm
        · exact Or.inr (Or.inr (Or.inl ⟨h, h6⟩))
        · refine Or.inr (Or.inr (Or.inr ⟨v, u, h7, h6, le_trans ?_ h3⟩))
          rw [d2_comm v u, d2_comm x' y']
          exact le_trans h8 h5
    · exact Or.inr (Or.inr (Or.inr ⟨x', y', h1, onEdge_of_degenerate h.symm h2, h3⟩))

end TDP.TriDist
