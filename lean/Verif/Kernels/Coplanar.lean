import Verif.Kernels.TriProps
/-! C38: the test for triangles in one plane is exact. First in the plane, then for `TriInt`. -/
namespace TDP.Kernels
open TDP.Boxes

/-! ## Two triangles in the plane -/
namespace Plane

/-- A triangle in the plane. -/
structure T where
  x : Fin 3 → ℚ
  y : Fin 3 → ℚ

/-- Twice the signed area. -/
def T.area (t : T) : ℚ := (t.x 1 - t.x 0) * (t.y 2 - t.y 0) - (t.x 2 - t.x 0) * (t.y 1 - t.y 0)

/-- `(p, q)` is the point with weights `w`. -/
def T.At (t : T) (w : Fin 3 → ℚ) (p q : ℚ) : Prop :=
  w 0 + w 1 + w 2 = 1 ∧ p = w 0 * t.x 0 + w 1 * t.x 1 + w 2 * t.x 2 ∧ q = w 0 * t.y 0 + w 1 * t.y 1 + w 2 * t.y 2

def T.In (t : T) (p q : ℚ) : Prop := ∃ w, t.At w p q ∧ ∀ i, 0 ≤ w i
def T.Inside (t : T) (p q : ℚ) : Prop := ∃ w, t.At w p q ∧ ∀ i, 0 < w i
/-- On edge `i`, from corner `i` to corner `i+1`. -/
def T.OnEdge (t : T) (i : Fin 3) (p q : ℚ) : Prop :=
  ∃ l, 0 ≤ l ∧ l ≤ 1 ∧ p = (1 - l) * t.x i + l * t.x (i + 1) ∧ q = (1 - l) * t.y i + l * t.y (i + 1)

theorem exists_weights (t : T) (h : t.area ≠ 0) (p q : ℚ) : ∃ w, t.At w p q := by
  refine ⟨pt3 (1 - ((p - t.x 0) * (t.y 2 - t.y 0) - (t.x 2 - t.x 0) * (q - t.y 0)) / t.area -
      ((t.x 1 - t.x 0) * (q - t.y 0) - (p - t.x 0) * (t.y 1 - t.y 0)) / t.area)
    (((p - t.x 0) * (t.y 2 - t.y 0) - (t.x 2 - t.x 0) * (q - t.y 0)) / t.area)
    (((t.x 1 - t.x 0) * (q - t.y 0) - (p - t.x 0) * (t.y 1 - t.y 0)) / t.area), ?_, ?_, ?_⟩
  · simp only [pt3_0, pt3_1, pt3_2]; ring
  · simp only [pt3_0, pt3_1, pt3_2]
    field_simp
    unfold T.area
    ring
  · simp only [pt3_0, pt3_1, pt3_2]
    field_simp
    unfold T.area
    ring

/-- Moving from nonnegative numbers `a` to numbers `b` one of which is not positive, one becomes zero while all are still nonnegative. -/
theorem exit_list : ∀ (L : List (ℚ × ℚ)), (∀ e ∈ L, 0 ≤ e.1) → (∃ e ∈ L, e.2 ≤ 0) →
    ∃ l, 0 ≤ l ∧ l ≤ 1 ∧ (∀ e ∈ L, 0 ≤ (1 - l) * e.1 + l * e.2) ∧ ∃ e ∈ L, (1 - l) * e.1 + l * e.2 = 0
  | [], _, h => by obtain ⟨e, he, _⟩ := h; simp at he
  | (a, b) :: L, hpos, hex => by
    have ha : 0 ≤ a := hpos (a, b) List.mem_cons_self
    by_cases ht : ∃ e ∈ L, e.2 ≤ 0
    · obtain ⟨l, l0, l1, hall, e, he, hz⟩ := exit_list L (fun e he => hpos e (List.mem_cons_of_mem _ he)) ht
      by_cases hh : 0 ≤ (1 - l) * a + l * b
      · refine ⟨l, l0, l1, ?_, e, List.mem_cons_of_mem _ he, hz⟩
        intro f hf
        rcases List.mem_cons.1 hf with rfl | hf
        · exact hh
        · exact hall f hf
      · rw [not_le] at hh
        have hb : 0 < a - b := by
          by_contra hc
          have : 0 ≤ (1 - l) * a + l * b := by nlinarith
          linarith
        have hkl : a / (a - b) < l := by rw [div_lt_iff₀ hb]; linarith
        have hk0 : 0 ≤ a / (a - b) := div_nonneg ha hb.le
        have hkz : (1 - a / (a - b)) * a + a / (a - b) * b = 0 := by field_simp; ring
        refine ⟨a / (a - b), hk0, by linarith, ?_, (a, b), List.mem_cons_self, hkz⟩
        intro f hf
        rcases List.mem_cons.1 hf with rfl | hf
        · exact hkz.ge
        · have h1 := hall f hf
          have h2 := hpos f (List.mem_cons_of_mem _ hf)
          generalize a / (a - b) = k at hkl hk0
          have hl : 0 < l := lt_of_le_of_lt hk0 hkl
          have : l * ((1 - k) * f.1 + k * f.2) = k * ((1 - l) * f.1 + l * f.2) + (l - k) * f.1 := by ring
          have h3 : 0 ≤ l * ((1 - k) * f.1 + k * f.2) := by
            rw [this]
            exact add_nonneg (mul_nonneg hk0 h1) (mul_nonneg (by linarith) h2)
          exact nonneg_of_mul_nonneg_right h3 hl
    · have hb : b ≤ 0 := by
        obtain ⟨e, he, hle⟩ := hex
        rcases List.mem_cons.1 he with rfl | he
        · exact hle
        · exact absurd ⟨e, he, hle⟩ ht
      have htail : ∀ f ∈ L, 0 < f.2 := fun f hf => not_le.1 fun h => ht ⟨f, hf, h⟩
      have step : ∀ k, 0 ≤ k → k ≤ 1 → (1 - k) * a + k * b = 0 → ∃ l, 0 ≤ l ∧ l ≤ 1 ∧ (∀ e ∈ (a, b) :: L, 0 ≤ (1 - l) * e.1 + l * e.2) ∧
          ∃ e ∈ (a, b) :: L, (1 - l) * e.1 + l * e.2 = 0 := by
        intro k k0 k1 kz
        refine ⟨k, k0, k1, ?_, (a, b), List.mem_cons_self, kz⟩
        intro f hf
        rcases List.mem_cons.1 hf with rfl | hf
        · exact kz.ge
        · exact add_nonneg (mul_nonneg (by linarith) (hpos f (List.mem_cons_of_mem _ hf))) (mul_nonneg k0 (htail f hf).le)
      by_cases hab : a - b = 0
      · exact step 0 le_rfl zero_le_one (by rw [show a = 0 by linarith]; ring)
      · have h0 : 0 < a - b := lt_of_le_of_ne (by linarith) (Ne.symm hab)
        exact step (a / (a - b)) (div_nonneg ha h0.le) ((div_le_one h0).2 (by linarith)) (by field_simp; ring)

/-- A point of an edge from its weights. -/
theorem onEdge_of_weight (t : T) (w : Fin 3 → ℚ) (p q : ℚ) (h : t.At w p q) (h0 : ∀ i, 0 ≤ w i) (k : Fin 3) (hk : w (k + 2) = 0) :
    t.OnEdge k p q := by
  obtain ⟨hs, hp, hq⟩ := h
  have n0 := h0 0; have n1 := h0 1; have n2 := h0 2
  fin_cases k
  · change w 2 = 0 at hk
    refine ⟨w 1, n1, by linarith, ?_, ?_⟩
    · change p = (1 - w 1) * t.x 0 + w 1 * t.x 1
      rw [hp, hk, show 1 - w 1 = w 0 by linarith]; ring
    · change q = (1 - w 1) * t.y 0 + w 1 * t.y 1
      rw [hq, hk, show 1 - w 1 = w 0 by linarith]; ring
  · change w 0 = 0 at hk
    refine ⟨w 2, n2, by linarith, ?_, ?_⟩
    · change p = (1 - w 2) * t.x 1 + w 2 * t.x 2
      rw [hp, hk, show 1 - w 2 = w 1 by linarith]; ring
    · change q = (1 - w 2) * t.y 1 + w 2 * t.y 2
      rw [hq, hk, show 1 - w 2 = w 1 by linarith]; ring
  · change w 1 = 0 at hk
    refine ⟨w 0, n0, by linarith, ?_, ?_⟩
    · change p = (1 - w 0) * t.x 2 + w 0 * t.x 0
      rw [hp, hk, show 1 - w 0 = w 2 by linarith]; ring
    · change q = (1 - w 0) * t.y 2 + w 0 * t.y 0
      rw [hq, hk, show 1 - w 0 = w 2 by linarith]; ring

/-- From a point of the triangle to a point that is not inside it one passes an edge. -/
theorem exit_tri (t : T) (h : t.area ≠ 0) (p q p' q' : ℚ) (hin : t.In p q) (hout : ¬ t.Inside p' q') :
    ∃ l k, 0 ≤ l ∧ l ≤ 1 ∧ t.OnEdge k ((1 - l) * p + l * p') ((1 - l) * q + l * q') := by
  obtain ⟨a, ⟨as, ap, aq⟩, apos⟩ := hin
  obtain ⟨b, bs, bp, bq⟩ := exists_weights t h p' q'
  have hb : ∃ i, b i ≤ 0 := by
    by_contra hc
    exact hout ⟨b, ⟨bs, bp, bq⟩, fun i => not_le.1 fun h => hc ⟨i, h⟩⟩
  obtain ⟨l, l0, l1, hall, e, he, hz⟩ := exit_list ((List.finRange 3).map fun i => (a i, b i))
    (by simp only [List.mem_map]; rintro e ⟨i, _, rfl⟩; exact apos i)
    (by obtain ⟨i, hi⟩ := hb; exact ⟨(a i, b i), List.mem_map.2 ⟨i, List.mem_finRange i, rfl⟩, hi⟩)
  obtain ⟨i, _, rfl⟩ := List.mem_map.1 he
  refine ⟨l, i + 1, l0, l1, onEdge_of_weight t (fun i => (1 - l) * a i + l * b i) _ _ ⟨?_, ?_, ?_⟩ ?_ _ ?_⟩
  · show (1 - l) * a 0 + l * b 0 + ((1 - l) * a 1 + l * b 1) + ((1 - l) * a 2 + l * b 2) = 1
    linear_combination (1 - l) * as + l * bs
  · show _ = ((1 - l) * a 0 + l * b 0) * t.x 0 + ((1 - l) * a 1 + l * b 1) * t.x 1 + ((1 - l) * a 2 + l * b 2) * t.x 2
    linear_combination (1 - l) * ap + l * bp
  · show _ = ((1 - l) * a 0 + l * b 0) * t.y 0 + ((1 - l) * a 1 + l * b 1) * t.y 1 + ((1 - l) * a 2 + l * b 2) * t.y 2
    linear_combination (1 - l) * aq + l * bq
  · intro i
    exact hall (a i, b i) (List.mem_map.2 ⟨i, List.mem_finRange i, rfl⟩)
  · show (1 - l) * a (i + 1 + 2) + l * b (i + 1 + 2) = 0
    rw [show i + 1 + 2 = i by fin_cases i <;> rfl]
    exact hz

theorem in_comb (t : T) (p q p' q' l : ℚ) (h : t.In p q) (h' : t.In p' q') (l0 : 0 ≤ l) (l1 : l ≤ 1) :
    t.In ((1 - l) * p + l * p') ((1 - l) * q + l * q') := by
  obtain ⟨a, ⟨as, ap, aq⟩, apos⟩ := h
  obtain ⟨b, ⟨bs, bp, bq⟩, bpos⟩ := h'
  refine ⟨fun i => (1 - l) * a i + l * b i, ⟨?_, ?_, ?_⟩, fun i => add_nonneg (mul_nonneg (by linarith) (apos i)) (mul_nonneg l0 (bpos i))⟩
  · show (1 - l) * a 0 + l * b 0 + ((1 - l) * a 1 + l * b 1) + ((1 - l) * a 2 + l * b 2) = 1
    linear_combination (1 - l) * as + l * bs
  · show _ = ((1 - l) * a 0 + l * b 0) * t.x 0 + ((1 - l) * a 1 + l * b 1) * t.x 1 + ((1 - l) * a 2 + l * b 2) * t.x 2
    linear_combination (1 - l) * ap + l * bp
  · show _ = ((1 - l) * a 0 + l * b 0) * t.y 0 + ((1 - l) * a 1 + l * b 1) * t.y 1 + ((1 - l) * a 2 + l * b 2) * t.y 2
    linear_combination (1 - l) * aq + l * bq

theorem in_corner (t : T) (i : Fin 3) : t.In (t.x i) (t.y i) := by
  refine ⟨fun j => if j = i then 1 else 0, ?_, fun j => by show 0 ≤ (if j = i then (1:ℚ) else 0); split <;> norm_num⟩
  fin_cases i <;> simp [T.At]

theorem inside_in (t : T) (p q : ℚ) (h : t.Inside p q) : t.In p q := by
  obtain ⟨w, h1, h2⟩ := h
  exact ⟨w, h1, fun i => (h2 i).le⟩

theorem onEdge_comb (t : T) (i : Fin 3) (p q p' q' l : ℚ) (h : t.OnEdge i p q) (h' : t.OnEdge i p' q') (l0 : 0 ≤ l) (l1 : l ≤ 1) :
    t.OnEdge i ((1 - l) * p + l * p') ((1 - l) * q + l * q') := by
  obtain ⟨a, a0, a1, ap, aq⟩ := h
  obtain ⟨b, b0, b1, bp, bq⟩ := h'
  refine ⟨(1 - l) * a + l * b, add_nonneg (mul_nonneg (by linarith) a0) (mul_nonneg l0 b0), ?_, ?_, ?_⟩
  · have h1 : 0 ≤ 1 - l := by linarith
    nlinarith
  · rw [ap, bp]; ring
  · rw [aq, bq]; ring

theorem onEdge_first (t : T) (i : Fin 3) : t.OnEdge i (t.x i) (t.y i) := ⟨0, le_rfl, zero_le_one, by ring, by ring⟩
theorem onEdge_second (t : T) (i : Fin 3) : t.OnEdge i (t.x (i + 1)) (t.y (i + 1)) := ⟨1, zero_le_one, le_rfl, by ring, by ring⟩

/-- Either a corner `0` lies inside the other triangle, or two edges have a point in common. -/
theorem edges_of_meet (v u : T) (hv : v.area ≠ 0) (hu : u.area ≠ 0) (p q : ℚ) (h1 : v.In p q) (h2 : u.In p q)
    (hV : ¬ u.Inside (v.x 0) (v.y 0)) (hU : ¬ v.Inside (u.x 0) (u.y 0)) :
    ∃ i j p q, v.OnEdge i p q ∧ u.OnEdge j p q := by
  obtain ⟨l, k, l0, l1, he⟩ := exit_tri u hu p q _ _ h2 hV
  have hin := in_comb v p q _ _ l h1 (in_corner v 0) l0 l1
  generalize (1 - l) * p + l * v.x 0 = p2 at he hin
  generalize (1 - l) * q + l * v.y 0 = q2 at he hin
  have go : ∀ j p q p' q', u.OnEdge j p q → u.OnEdge j p' q' → v.In p q → ¬ v.Inside p' q' →
      ∃ i j p q, v.OnEdge i p q ∧ u.OnEdge j p q := by
    intro j p q p' q' e1 e2 h1 h2
    obtain ⟨l, i, l0, l1, he⟩ := exit_tri v hv p q p' q' h1 h2
    exact ⟨i, j, _, _, he, onEdge_comb u j _ _ _ _ l e1 e2 l0 l1⟩
  by_cases c1 : v.Inside (u.x k) (u.y k)
  · by_cases c2 : v.Inside (u.x (k + 1)) (u.y (k + 1))
    · have hk : k = 1 := by
        fin_cases k
        · exact absurd c1 hU
        · rfl
        · exact absurd c2 hU
      subst hk
      exact go 0 (u.x 1) (u.y 1) (u.x 0) (u.y 0) (onEdge_second u 0) (onEdge_first u 0) (in_corner_of c1) hU
    · exact go k _ _ _ _ he (onEdge_second u k) hin c2
  · exact go k _ _ _ _ he (onEdge_first u k) hin c1
where
  in_corner_of {p q : ℚ} {v : T} (h : v.Inside p q) : v.In p q := inside_in v p q h

/-- The determinant of the directions of two edges. -/
def dirs (v u : T) (i j : Fin 3) : ℚ :=
  (v.x (i + 1) - v.x i) * (u.y (j + 1) - u.y j) - (v.y (i + 1) - v.y i) * (u.x (j + 1) - u.x j)

/-- Two edges that are not parallel have a point in common. -/
def Cross (v u : T) (i j : Fin 3) : Prop := dirs v u i j ≠ 0 ∧ ∃ p q, v.OnEdge i p q ∧ u.OnEdge j p q

theorem area_corner (t : T) (i : Fin 3) :
    (t.x (i + 1) - t.x i) * (t.y (i + 2) - t.y (i + 1)) - (t.y (i + 1) - t.y i) * (t.x (i + 2) - t.x (i + 1)) = t.area := by
  unfold T.area
  fin_cases i
  · change (t.x 1 - t.x 0) * (t.y 2 - t.y 1) - (t.y 1 - t.y 0) * (t.x 2 - t.x 1) = _; ring
  · change (t.x 2 - t.x 1) * (t.y 0 - t.y 2) - (t.y 2 - t.y 1) * (t.x 0 - t.x 2) = _; ring
  · change (t.x 0 - t.x 2) * (t.y 1 - t.y 0) - (t.y 0 - t.y 2) * (t.x 1 - t.x 0) = _; ring

theorem Cross.symm {v u : T} {i j : Fin 3} (h : Cross v u i j) : Cross u v j i := by
  obtain ⟨h1, p, q, h2, h3⟩ := h
  refine ⟨?_, p, q, h3, h2⟩
  intro hz
  apply h1
  unfold dirs at *
  linear_combination -hz

/-- If the corner where edges `i` and `i+1` of `v` meet lies on edge `j` of `u`, one of the two crosses it. -/
theorem cross_at_corner (v u : T) (hv : v.area ≠ 0) (hu : u.area ≠ 0) (i j : Fin 3) (h : u.OnEdge j (v.x (i + 1)) (v.y (i + 1))) :
    Cross v u i j ∨ Cross v u (i + 1) j := by
  by_cases h1 : dirs v u i j = 0
  · by_cases h2 : dirs v u (i + 1) j = 0
    · exfalso
      have hd : u.x (j + 1) - u.x j ≠ 0 ∨ u.y (j + 1) - u.y j ≠ 0 := by
        by_contra hc
        rw [not_or, not_not, not_not] at hc
        apply hu
        rw [← area_corner u j, hc.1, hc.2]; ring
      have ha := area_corner v i
      unfold dirs at h1 h2
      rw [show i + 1 + 1 = i + 2 by fin_cases i <;> rfl] at h2
      rcases hd with hd | hd
      · apply hv
        apply mul_left_cancel₀ hd
        rw [mul_zero]
        linear_combination (-(u.x (j + 1) - u.x j)) * ha + (v.x (i + 1) - v.x i) * (-h2) + (v.x (i + 2) - v.x (i + 1)) * h1
      · apply hv
        apply mul_left_cancel₀ hd
        rw [mul_zero]
        linear_combination (-(u.y (j + 1) - u.y j)) * ha + (v.y (i + 1) - v.y i) * (-h2) + (v.y (i + 2) - v.y (i + 1)) * h1
    · exact Or.inr ⟨h2, _, _, onEdge_first v (i + 1), h⟩
  · exact Or.inl ⟨h1, _, _, onEdge_second v i, h⟩

/-- Two edges on one line with a point in common: an end of one lies on the other. -/
theorem end_on_edge (v u : T) (hv : v.area ≠ 0) (i j : Fin 3) (h : dirs v u i j = 0) (p q : ℚ) (h1 : v.OnEdge i p q) (h2 : u.OnEdge j p q) :
    u.OnEdge j (v.x i) (v.y i) ∨ u.OnEdge j (v.x (i + 1)) (v.y (i + 1)) ∨ v.OnEdge i (u.x j) (u.y j) ∨ v.OnEdge i (u.x (j + 1)) (u.y (j + 1)) := by
  obtain ⟨a, a0, a1, ap, aq⟩ := h1
  obtain ⟨b, b0, b1, bp, bq⟩ := h2
  obtain ⟨dx, hdx⟩ : ∃ z, v.x (i + 1) - v.x i = z := ⟨_, rfl⟩
  obtain ⟨dy, hdy⟩ : ∃ z, v.y (i + 1) - v.y i = z := ⟨_, rfl⟩
  obtain ⟨ex, hex⟩ : ∃ z, u.x (j + 1) - u.x j = z := ⟨_, rfl⟩
  obtain ⟨ey, hey⟩ : ∃ z, u.y (j + 1) - u.y j = z := ⟨_, rfl⟩
  unfold dirs at h
  rw [hdx, hdy, hex, hey] at h
  have hd : dx ≠ 0 ∨ dy ≠ 0 := by
    by_contra hc
    rw [not_or, not_not, not_not] at hc
    apply hv
    rw [← area_corner v i, hdx, hdy, hc.1, hc.2]; ring
  -- the directions are multiples
  obtain ⟨c, cx, cy⟩ : ∃ c, ex = c * dx ∧ ey = c * dy := by
    rcases hd with hd | hd
    · exact ⟨ex / dx, by field_simp, by field_simp; linarith⟩
    · exact ⟨ey / dy, by field_simp; linarith, by field_simp⟩
  have F1 : u.x (j + 1) - u.x j = c * dx := hex.trans cx
  have F2 : u.y (j + 1) - u.y j = c * dy := hey.trans cy
  have E1 : u.x j + b * c * dx = v.x i + a * dx := by linear_combination ap - bp + a * hdx - b * F1
  have E2 : u.y j + b * c * dy = v.y i + a * dy := by linear_combination aq - bq + a * hdy - b * F2
  by_cases k0 : 0 ≤ a - b * c ∧ a - b * c ≤ 1
  · refine Or.inr (Or.inr (Or.inl ⟨a - b * c, k0.1, k0.2, ?_, ?_⟩))
    · linear_combination E1 - (a - b * c) * hdx
    · linear_combination E2 - (a - b * c) * hdy
  · rcases lt_trichotomy c 0 with hc | hc | hc
    · right; left
      have h0 : 0 ≤ -(b * c) := by rw [← mul_neg]; exact mul_nonneg b0 (by linarith)
      have h1 : b * c + (1 - a) < 0 := by
        by_contra hh
        exact k0 ⟨by linarith, by linarith⟩
      obtain ⟨w, hw⟩ : ∃ w, w * c = b * c + (1 - a) := ⟨b + (1 - a) / c, by rw [add_mul, div_mul_cancel₀ _ hc.ne]⟩
      have w0 : 0 ≤ w := by
        by_contra hh
        have := mul_pos_of_neg_of_neg (not_le.1 hh) hc
        linarith
      have w1 : w ≤ b := by
        by_contra hh
        have := mul_neg_of_pos_of_neg (sub_pos.2 (not_le.1 hh)) hc
        have h3 : (w - b) * c = 1 - a := by linear_combination hw
        linarith
      refine ⟨w, w0, by linarith, ?_, ?_⟩
      · linear_combination hdx - E1 - w * F1 - dx * hw
      · linear_combination hdy - E2 - w * F2 - dy * hw
    · rw [hc] at k0
      exact absurd ⟨by linarith, by linarith⟩ k0
    · left
      have h0 : 0 ≤ b * c := mul_nonneg b0 hc.le
      have h1 : a - b * c < 0 := by
        by_contra hh
        exact k0 ⟨by linarith, by linarith⟩
      obtain ⟨w, hw⟩ : ∃ w, w * c = b * c - a := ⟨b - a / c, by rw [sub_mul, div_mul_cancel₀ _ hc.ne']⟩
      have w0 : 0 ≤ w := by
        by_contra hh
        have := mul_neg_of_neg_of_pos (not_le.1 hh) hc
        linarith
      have w1 : w ≤ b := by
        by_contra hh
        have := mul_pos (sub_pos.2 (not_le.1 hh)) hc
        have h3 : (w - b) * c = - a := by linear_combination hw
        linarith
      refine ⟨w, w0, by linarith, ?_, ?_⟩
      · linear_combination (-1 : ℚ) * E1 - w * F1 - dx * hw
      · linear_combination (-1 : ℚ) * E2 - w * F2 - dy * hw

/-- Two triangles that meet: a corner `0` lies inside the other one or two edges cross. -/
theorem meet_cases (v u : T) (hv : v.area ≠ 0) (hu : u.area ≠ 0) (p q : ℚ) (h1 : v.In p q) (h2 : u.In p q) :
    u.Inside (v.x 0) (v.y 0) ∨ v.Inside (u.x 0) (u.y 0) ∨ ∃ i j, Cross v u i j := by
  by_cases hV : u.Inside (v.x 0) (v.y 0)
  · exact Or.inl hV
  by_cases hU : v.Inside (u.x 0) (u.y 0)
  · exact Or.inr (Or.inl hU)
  refine Or.inr (Or.inr ?_)
  obtain ⟨i, j, p, q, e1, e2⟩ := edges_of_meet v u hv hu p q h1 h2 hV hU
  by_cases hd : dirs v u i j = 0
  · have vcorner : ∀ k, u.OnEdge j (v.x k) (v.y k) → ∃ i j, Cross v u i j := by
      intro k h
      have e : k + 2 + 1 = k := by fin_cases k <;> rfl
      rcases cross_at_corner v u hv hu (k + 2) j (by rw [e]; exact h) with h | h
      · exact ⟨_, _, h⟩
      · exact ⟨_, _, h⟩
    have ucorner : ∀ k, v.OnEdge i (u.x k) (u.y k) → ∃ i j, Cross v u i j := by
      intro k h
      have e : k + 2 + 1 = k := by fin_cases k <;> rfl
      rcases cross_at_corner u v hu hv (k + 2) i (by rw [e]; exact h) with h | h
      · exact ⟨_, _, h.symm⟩
      · exact ⟨_, _, h.symm⟩
    rcases end_on_edge v u hv i j hd p q e1 e2 with h | h | h | h
    · exact vcorner _ h
    · exact vcorner _ h
    · exact ucorner _ h
    · exact ucorner _ h
  · exact ⟨i, j, hd, p, q, e1, e2⟩

end Plane
/-! ## The code -/

/-- The corners of a triangle seen along an axis. -/
def planeT (i0 i1 : Fin 3) (A B C : Pt ℚ) : Plane.T := ⟨pt3 (A i0) (B i0) (C i0), pt3 (A i1) (B i1) (C i1)⟩

theorem edgeEdge_complete {i0 i1 : Fin 3} {V0 V1 U0 U1 : Pt ℚ}
    (hf : (V1 i0 - V0 i0) * (U1 i1 - U0 i1) - (V1 i1 - V0 i1) * (U1 i0 - U0 i0) ≠ 0) {l m : ℚ} (l0 : 0 ≤ l) (l1 : l ≤ 1) (m0 : 0 ≤ m) (m1 : m ≤ 1)
    (e0 : (1 - l) * V0 i0 + l * V1 i0 = (1 - m) * U0 i0 + m * U1 i0)
    (e1 : (1 - l) * V0 i1 + l * V1 i1 = (1 - m) * U0 i1 + m * U1 i1) :
    edgeEdge i0 i1 (V1 i0 - V0 i0) (V1 i1 - V0 i1) V0 U0 U1 = true := by
  unfold edgeEdge
  simp only
  have hff : (V1 i1 - V0 i1) * (U0 i0 - U1 i0) - (V1 i0 - V0 i0) * (U0 i1 - U1 i1) =
      (V1 i0 - V0 i0) * (U1 i1 - U0 i1) - (V1 i1 - V0 i1) * (U1 i0 - U0 i0) := by ring
  rw [hff]
  have hd : (U0 i1 - U1 i1) * (V0 i0 - U0 i0) - (U0 i0 - U1 i0) * (V0 i1 - U0 i1) =
      l * ((V1 i0 - V0 i0) * (U1 i1 - U0 i1) - (V1 i1 - V0 i1) * (U1 i0 - U0 i0)) := by
    linear_combination (U0 i1 - U1 i1) * e0 - (U0 i0 - U1 i0) * e1
  have he : (V1 i0 - V0 i0) * (V0 i1 - U0 i1) - (V1 i1 - V0 i1) * (V0 i0 - U0 i0) =
      m * ((V1 i0 - V0 i0) * (U1 i1 - U0 i1) - (V1 i1 - V0 i1) * (U1 i0 - U0 i0)) := by
    linear_combination (V1 i0 - V0 i0) * e1 - (V1 i1 - V0 i1) * e0
  rw [hd, he]
  generalize (V1 i0 - V0 i0) * (U1 i1 - U0 i1) - (V1 i1 - V0 i1) * (U1 i0 - U0 i0) = f at hf
  rcases lt_or_gt_of_ne hf with h | h
  · rw [if_pos (Or.inr ⟨h, by nlinarith, by nlinarith⟩), if_neg (by linarith), decide_eq_true_eq]
    exact ⟨by nlinarith, by nlinarith⟩
  · rw [if_pos (Or.inl ⟨h, by nlinarith, by nlinarith⟩), if_pos h, decide_eq_true_eq]
    exact ⟨by nlinarith, by nlinarith⟩

theorem pointInTri_complete {i0 i1 : Fin 3} {V U0 U1 U2 : Pt ℚ} (ha : (planeT i0 i1 U0 U1 U2).area ≠ 0)
    (h : (planeT i0 i1 U0 U1 U2).Inside (V i0) (V i1)) : pointInTri i0 i1 V U0 U1 U2 = true := by
  obtain ⟨w, ⟨hs, hp, hq⟩, hw⟩ := h
  simp only [planeT, pt3_0, pt3_1, pt3_2] at hp hq
  have hw0 : w 0 = 1 - w 1 - w 2 := by linarith
  rw [hw0] at hp hq
  have d0 : edgeSide i0 i1 V U0 U1 = -((planeT i0 i1 U0 U1 U2).area * w 2) := by
    unfold edgeSide Plane.T.area planeT
    simp only [pt3_0, pt3_1, pt3_2]
    rw [hp, hq]; ring
  have d1 : edgeSide i0 i1 V U1 U2 = -((planeT i0 i1 U0 U1 U2).area * w 0) := by
    unfold edgeSide Plane.T.area planeT
    simp only [pt3_0, pt3_1, pt3_2]
    rw [hp, hq, hw0]; ring
  have d2 : edgeSide i0 i1 V U2 U0 = -((planeT i0 i1 U0 U1 U2).area * w 1) := by
    unfold edgeSide Plane.T.area planeT
    simp only [pt3_0, pt3_1, pt3_2]
    rw [hp, hq]; ring
  unfold pointInTri
  simp only
  rw [d0, d1, d2]
  have sq := mul_self_pos.2 ha
  have n0 := hw 0; have n1 := hw 1; have n2 := hw 2
  generalize (planeT i0 i1 U0 U1 U2).area = S at *
  rw [if_pos, decide_eq_true_eq]
  · have : -(S * w 2) * -(S * w 1) = S * S * (w 2 * w 1) := by ring
    rw [this]; positivity
  · have : -(S * w 2) * -(S * w 0) = S * S * (w 2 * w 0) := by ring
    rw [gt_iff_lt, this]; positivity

/-- The whole test in the plane: if the triangles are not flat and have a point in common it says yes. -/
theorem coplanar_plane_complete {N V0 V1 V2 U0 U1 U2 : Pt ℚ} (hv : (planeT (projAxes N).1 (projAxes N).2 V0 V1 V2).area ≠ 0)
    (hu : (planeT (projAxes N).1 (projAxes N).2 U0 U1 U2).area ≠ 0) {p q : ℚ}
    (h1 : (planeT (projAxes N).1 (projAxes N).2 V0 V1 V2).In p q) (h2 : (planeT (projAxes N).1 (projAxes N).2 U0 U1 U2).In p q) :
    coplanarTriTri N V0 V1 V2 U0 U1 U2 = true := by
  unfold coplanarTriTri
  simp only
  generalize (projAxes N).1 = i0 at *
  generalize (projAxes N).2 = i1 at *
  rcases Plane.meet_cases _ _ hv hu p q h1 h2 with h | h | ⟨i, j, hd, p, q, ⟨l, l0, l1, lp, lq⟩, m, m0, m1, mp, mq⟩
  · rw [pointInTri_complete (V := V0) hu h]; simp
  · rw [pointInTri_complete (V := U0) hv h]; simp
  · have key : ∀ V V' U U' : Pt ℚ, (planeT i0 i1 V0 V1 V2).x i = V i0 → (planeT i0 i1 V0 V1 V2).y i = V i1 →
        (planeT i0 i1 V0 V1 V2).x (i + 1) = V' i0 → (planeT i0 i1 V0 V1 V2).y (i + 1) = V' i1 →
        (planeT i0 i1 U0 U1 U2).x j = U i0 → (planeT i0 i1 U0 U1 U2).y j = U i1 →
        (planeT i0 i1 U0 U1 U2).x (j + 1) = U' i0 → (planeT i0 i1 U0 U1 U2).y (j + 1) = U' i1 →
        edgeEdge i0 i1 (V' i0 - V i0) (V' i1 - V i1) V U U' = true := by
      intro V V' U U' a1 a2 a3 a4 b1 b2 b3 b4
      unfold Plane.dirs at hd
      rw [a1, a2, a3, a4, b1, b2, b3, b4] at hd
      rw [a1, a3] at lp
      rw [a2, a4] at lq
      rw [b1, b3] at mp
      rw [b2, b4] at mq
      exact edgeEdge_complete hd l0 l1 m0 m1 (lp.symm.trans mp) (lq.symm.trans mq)
    unfold edgeTri
    fin_cases i <;> fin_cases j
    · simp [key V0 V1 U0 U1 rfl rfl rfl rfl rfl rfl rfl rfl]
    · simp [key V0 V1 U1 U2 rfl rfl rfl rfl rfl rfl rfl rfl]
    · simp [key V0 V1 U2 U0 rfl rfl rfl rfl rfl rfl rfl rfl]
    · simp [key V1 V2 U0 U1 rfl rfl rfl rfl rfl rfl rfl rfl]
    · simp [key V1 V2 U1 U2 rfl rfl rfl rfl rfl rfl rfl rfl]
    · simp [key V1 V2 U2 U0 rfl rfl rfl rfl rfl rfl rfl rfl]
    · simp [key V2 V0 U0 U1 rfl rfl rfl rfl rfl rfl rfl rfl]
    · simp [key V2 V0 U1 U2 rfl rfl rfl rfl rfl rfl rfl rfl]
    · simp [key V2 V0 U2 U0 rfl rfl rfl rfl rfl rfl rfl rfl]

theorem planeT_in {i0 i1 : Fin 3} {C P1 P2 x : Pt ℚ} (h : InTri C P1 P2 x) : (planeT i0 i1 C (vadd C P1) (vadd C P2)).In (x i0) (x i1) := by
  obtain ⟨a, b, a0, b0, ab, e⟩ := h
  refine ⟨pt3 (1 - a - b) a b, ⟨?_, ?_, ?_⟩, ?_⟩
  · simp only [pt3_0, pt3_1, pt3_2]; ring
  · simp only [planeT, pt3_0, pt3_1, pt3_2, vadd_apply]; rw [e]; ring
  · simp only [planeT, pt3_0, pt3_1, pt3_2, vadd_apply]; rw [e]; ring
  · exact fin3_all (by simp only [pt3_0]; linarith) a0 b0

/-- The axis that `projAxes` drops: the normal has a component along it, and the area seen is that component. -/
theorem projAxes_area (N : Pt ℚ) (hN : N ≠ 0) : ∃ k, N k ≠ 0 ∧ ∀ C P1 P2 : Pt ℚ,
    (planeT (projAxes N).1 (projAxes N).2 C (vadd C P1) (vadd C P2)).area = vcross P1 P2 k ∨
    (planeT (projAxes N).1 (projAxes N).2 C (vadd C P1) (vadd C P2)).area = -vcross P1 P2 k := by
  have ab : ∀ a b : ℚ, |a| > |b| → a ≠ 0 := by
    intro a b h he
    rw [he, abs_zero] at h
    exact absurd (abs_nonneg b) (not_le.2 h)
  have n0 : N 0 ≠ 0 ∨ N 1 ≠ 0 ∨ N 2 ≠ 0 := by
    by_contra hh
    rw [not_or, not_or, not_not, not_not, not_not] at hh
    exact hN (funext (fin3_all hh.1 hh.2.1 hh.2.2))
  have A0 : ∀ C P1 P2 : Pt ℚ, (planeT 1 2 C (vadd C P1) (vadd C P2)).area = vcross P1 P2 0 := by
    intro C P1 P2
    unfold Plane.T.area planeT vcross; simp only [pt3_0, pt3_1, pt3_2, vadd_apply]; ring
  have A1 : ∀ C P1 P2 : Pt ℚ, (planeT 0 2 C (vadd C P1) (vadd C P2)).area = -vcross P1 P2 1 := by
    intro C P1 P2
    unfold Plane.T.area planeT vcross; simp only [pt3_0, pt3_1, pt3_2, vadd_apply]; ring
  have A2 : ∀ C P1 P2 : Pt ℚ, (planeT 0 1 C (vadd C P1) (vadd C P2)).area = vcross P1 P2 2 := by
    intro C P1 P2
    unfold Plane.T.area planeT vcross; simp only [pt3_0, pt3_1, pt3_2, vadd_apply]; ring
  unfold projAxes
  by_cases c1 : |N 0| > |N 1|
  · rw [if_pos c1]
    by_cases c2 : |N 0| > |N 2|
    · rw [if_pos c2]
      exact ⟨0, ab _ _ c1, fun C P1 P2 => Or.inl (A0 C P1 P2)⟩
    · rw [if_neg c2]
      exact ⟨2, ab _ (N 1) (lt_of_lt_of_le c1 (not_lt.1 c2)), fun C P1 P2 => Or.inl (A2 C P1 P2)⟩
  · rw [if_neg c1]
    by_cases c2 : |N 2| > |N 1|
    · rw [if_pos c2]
      exact ⟨2, ab _ _ c2, fun C P1 P2 => Or.inl (A2 C P1 P2)⟩
    · rw [if_neg c2]
      refine ⟨1, ?_, fun C P1 P2 => Or.inr (A1 C P1 P2)⟩
      intro hz
      rw [hz, abs_zero] at c1 c2
      rcases n0 with h | h | h
      · exact c1 (abs_pos.2 h)
      · exact h hz
      · exact c2 (abs_pos.2 h)

/-- **C38 for triangles in one plane**: neither being degenerate, the test says yes exactly if they have a point in common. -/
theorem C38_coplanar {C P1 P2 D Q1 Q2 : Pt ℚ} (hP : vcross P1 P2 ≠ 0) (hQ : vcross Q1 Q2 ≠ 0)
    (h0 : offPlane C P1 P2 D = 0) (h1 : offPlane C P1 P2 (vadd D Q1) = 0) (h2 : offPlane C P1 P2 (vadd D Q2) = 0) :
    triInt C P1 P2 D Q1 Q2 = true ↔ TriMeet C P1 P2 D Q1 Q2 := by
  refine ⟨C38_sound hP, ?_⟩
  rintro ⟨x, hx1, hx2⟩
  have hr : nd P1 P2 (vsub D C) = 0 := by rw [nd_eq]; exact h0
  have hq1 : nd P1 P2 Q1 = 0 := by
    have e : nd P1 P2 Q1 = offPlane C P1 P2 (vadd D Q1) - offPlane C P1 P2 D := by
      rw [nd_eq]; unfold offPlane vdot vsub vadd; simp only [pt3_0, pt3_1, pt3_2]; ring
    rw [e, h1, h0, sub_zero]
  have hq2 : nd P1 P2 Q2 = 0 := by
    have e : nd P1 P2 Q2 = offPlane C P1 P2 (vadd D Q2) - offPlane C P1 P2 D := by
      rw [nd_eq]; unfold offPlane vdot vsub vadd; simp only [pt3_0, pt3_1, pt3_2]; ring
    rw [e, h2, h0, sub_zero]
  rw [triInt_eq, if_pos ⟨hq1, hq2⟩, if_neg (by rw [hr]; simp)]
  obtain ⟨k, hk, harea⟩ := projAxes_area _ hP
  have nz : ∀ C' R1 R2 : Pt ℚ, vcross R1 R2 k ≠ 0 →
      (planeT (projAxes (vcross P1 P2)).1 (projAxes (vcross P1 P2)).2 C' (vadd C' R1) (vadd C' R2)).area ≠ 0 := by
    intro C' R1 R2 hk
    rcases harea C' R1 R2 with e | e
    · rw [e]; exact hk
    · rw [e]; exact neg_ne_zero.2 hk
  refine coplanar_plane_complete (nz _ _ _ hk) (nz _ _ _ ?_) (planeT_in hx1) (planeT_in hx2)
  -- the normals are parallel
  intro hz
  apply hQ
  rw [nd_eq] at hq1 hq2
  have par : ∀ i j : Fin 3, vcross P1 P2 i * vcross Q1 Q2 j = vcross P1 P2 j * vcross Q1 Q2 i := by
    generalize vcross P1 P2 = N at hq1 hq2
    unfold vdot at hq1 hq2
    have p01 : N 0 * vcross Q1 Q2 1 = N 1 * vcross Q1 Q2 0 := by
      unfold vcross; simp only [pt3_0, pt3_1, pt3_2]; linear_combination (-Q2 2) * hq1 + Q1 2 * hq2
    have p02 : N 0 * vcross Q1 Q2 2 = N 2 * vcross Q1 Q2 0 := by
      unfold vcross; simp only [pt3_0, pt3_1, pt3_2]; linear_combination Q2 1 * hq1 - Q1 1 * hq2
    have p12 : N 1 * vcross Q1 Q2 2 = N 2 * vcross Q1 Q2 1 := by
      unfold vcross; simp only [pt3_0, pt3_1, pt3_2]; linear_combination (-Q2 0) * hq1 + Q1 0 * hq2
    intro i j
    fin_cases i <;> fin_cases j
    · rfl
    · exact p01
    · exact p02
    · exact p01.symm
    · rfl
    · exact p12
    · exact p02.symm
    · exact p12.symm
    · rfl
  funext j
  have := par k j
  rw [hz, mul_zero] at this
  rcases mul_eq_zero.1 this with h | h
  · exact absurd h hk
  · exact h

/-- Met by triangles that share only a corner, by triangles one inside the other, and by disjoint ones. -/
example : ∃ C P1 P2 D Q1 Q2 : Pt ℚ, vcross P1 P2 ≠ 0 ∧ vcross Q1 Q2 ≠ 0 ∧ offPlane C P1 P2 D = 0 ∧ offPlane C P1 P2 (vadd D Q1) = 0 ∧
    offPlane C P1 P2 (vadd D Q2) = 0 ∧ triInt C P1 P2 D Q1 Q2 = true :=
  ⟨pt3 0 0 0, pt3 4 0 0, pt3 0 4 4, pt3 4 0 0, pt3 4 0 0, pt3 4 4 4, fun h => absurd (congrFun h 1) (by decide +kernel),
    fun h => absurd (congrFun h 1) (by decide +kernel), by decide +kernel, by decide +kernel, by decide +kernel, by decide +kernel⟩
example : ∃ C P1 P2 D Q1 Q2 : Pt ℚ, vcross P1 P2 ≠ 0 ∧ vcross Q1 Q2 ≠ 0 ∧ offPlane C P1 P2 D = 0 ∧ offPlane C P1 P2 (vadd D Q1) = 0 ∧
    offPlane C P1 P2 (vadd D Q2) = 0 ∧ triInt C P1 P2 D Q1 Q2 = false :=
  ⟨pt3 0 0 0, pt3 4 0 0, pt3 0 4 4, pt3 5 0 0, pt3 4 0 0, pt3 4 4 4, fun h => absurd (congrFun h 1) (by decide +kernel),
    fun h => absurd (congrFun h 1) (by decide +kernel), by decide +kernel, by decide +kernel, by decide +kernel, by decide +kernel⟩

end TDP.Kernels
