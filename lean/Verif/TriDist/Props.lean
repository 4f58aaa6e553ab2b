import Verif.TriDist.Exact
import Mathlib.Algebra.Order.Ring.Rat
import Mathlib.Algebra.Order.Field.Rat
import Mathlib.Analysis.Real.Sqrt
/-!
# C100: the distance of two triangles
-/
set_option linter.unusedSectionVars false
namespace TDP.TriDist
open TDP.Boxes

variable {K : Type} [Field K] [LinearOrder K] [IsStrictOrderedRing K]

/-- What `SegPoints` finds on edge `i` of `S` and edge `j` of `T`. -/
abbrev pts (S T : Tri K) (i j : Fin 3) : SegPts K := segPoints (S i) (side S i) (T j) (side T j)

/-- The points found on edge `i` of `S` and edge `j` of `T` are nearest to each other, for all nine pairs of edges. -/
def EdgesRight (S T : Tri K) : Prop :=
  ∀ (i j : Fin 3) (s v : K), 0 ≤ s → s ≤ 1 → 0 ≤ v → v ≤ 1 →
    d2 (pts S T i j).x (pts S T i j).y ≤ d2 (S i + s • (S (i + 1) - S i)) (T j + v • (T (j + 1) - T j))

/-! ## The loop over the edges -/

/-- The squared distance found. -/
def ddOf (S T : Tri K) (p : Fin 3 × Fin 3) : K := d2 (pts S T p.1 p.2).x (pts S T p.1 p.2).y
/-- The same as a value of `mindd`. -/
def ddTop (S T : Tri K) (p : Fin 3 × Fin 3) : WithTop K := ((ddOf S T p : K) : WithTop K)
/-- The number `a` in the loop. -/
def aOf (S T : Tri K) (p : Fin 3 × Fin 3) : K := dot (S (p.1 + 2) - (pts S T p.1 p.2).x) (pts S T p.1 p.2).vec
/-- The number `b` in the loop. -/
def bOf (S T : Tri K) (p : Fin 3 × Fin 3) : K := dot (T (p.2 + 2) - (pts S T p.1 p.2).y) (pts S T p.1 p.2).vec
/-- The pair is accepted. -/
def FoundAt (S T : Tri K) (p : Fin 3 × Fin 3) : Prop := aOf S T p ≤ 0 ∧ 0 ≤ bOf S T p
/-- The pair sets `shown_disjoint`. -/
def ShownAt (S T : Tri K) (p : Fin 3 × Fin 3) : Prop :=
  0 < dot ((pts S T p.1 p.2).y - (pts S T p.1 p.2).x) (pts S T p.1 p.2).vec - (if aOf S T p < 0 then 0 else aOf S T p) +
    (if bOf S T p > 0 then 0 else bOf S T p)

instance (S T : Tri K) (p : Fin 3 × Fin 3) : Decidable (ShownAt S T p) := inferInstanceAs (Decidable (_ < _))

theorem segLoop_spec (S T : Tri K) : ∀ (l : List (Fin 3 × Fin 3)) (m : WithTop K) (sh : Bool),
    (∃ p ∈ l, segLoop S T l m sh = .found (ddOf S T p) ∧ FoundAt S T p) ∨
    (∃ m' sh', segLoop S T l m sh = .more m' sh' ∧ m' ≤ m ∧ (∀ p ∈ l, m' ≤ ddTop S T p) ∧
      (m' = m ∨ ∃ p ∈ l, m' = ddTop S T p) ∧ (sh' = true → sh = true ∨ ∃ p ∈ l, ShownAt S T p) ∧
      ∀ p ∈ l, m' = ddTop S T p → ¬ FoundAt S T p)
  | [], m, sh => Or.inr ⟨m, sh, rfl, le_refl _, by simp, Or.inl rfl, fun h => Or.inl h, by simp⟩
  | (i, j) :: rest, m, sh => by
    have hdd : dot ((pts S T i j).y - (pts S T i j).x) ((pts S T i j).y - (pts S T i j).x) = ddOf S T (i, j) := (d2_eq_dot _ _).symm
    by_cases hm : ddTop S T (i, j) ≤ m
    · by_cases hf : FoundAt S T (i, j)
      · left
        refine ⟨(i, j), by simp, ?_, hf⟩
        rw [segLoop]
        simp only
        rw [hdd]
        exact (if_pos hm).trans (if_pos hf)
      · have e : segLoop S T ((i, j) :: rest) m sh = segLoop S T rest (ddTop S T (i, j)) (sh || decide (ShownAt S T (i, j))) := by
          conv_lhs => rw [segLoop]
          simp only
          rw [hdd]
          exact (if_pos hm).trans (if_neg hf)
        rw [e]
        rcases segLoop_spec S T rest (ddTop S T (i, j)) (sh || decide (ShownAt S T (i, j))) with ⟨p, hp, h1, h2⟩ | ⟨m', sh', h1, h2, h3, h4, h5, h6⟩
        · exact Or.inl ⟨p, List.mem_cons_of_mem _ hp, h1, h2⟩
        · refine Or.inr ⟨m', sh', h1, le_trans h2 hm, ?_, Or.inr ?_, ?_, ?_⟩
          · intro p hp
            rcases List.mem_cons.1 hp with rfl | hp
            · exact h2
            · exact h3 p hp
          · rcases h4 with h4 | ⟨p, hp, h4⟩
            · exact ⟨(i, j), by simp, h4⟩
            · exact ⟨p, List.mem_cons_of_mem _ hp, h4⟩
          · intro hs
            rcases h5 hs with h5 | ⟨p, hp, h5⟩
            · rw [Bool.or_eq_true, decide_eq_true_iff] at h5
              rcases h5 with h5 | h5
              · exact Or.inl h5
              · exact Or.inr ⟨(i, j), by simp, h5⟩
            · exact Or.inr ⟨p, List.mem_cons_of_mem _ hp, h5⟩
          · intro p hp he
            rcases List.mem_cons.1 hp with rfl | hp
            · exact hf
            · exact h6 p hp he
    · have e : segLoop S T ((i, j) :: rest) m sh = segLoop S T rest m sh := by
        conv_lhs => rw [segLoop]
        simp only
        rw [hdd]
        exact if_neg hm
      rw [e]
      rcases segLoop_spec S T rest m sh with ⟨p, hp, h1, h2⟩ | ⟨m', sh', h1, h2, h3, h4, h5, h6⟩
      · exact Or.inl ⟨p, List.mem_cons_of_mem _ hp, h1, h2⟩
      · have hlt := not_le.1 hm
        refine Or.inr ⟨m', sh', h1, h2, ?_, ?_, ?_, ?_⟩
        · intro p hp
          rcases List.mem_cons.1 hp with rfl | hp
          · exact le_trans h2 (le_of_lt hlt)
          · exact h3 p hp
        · rcases h4 with h4 | ⟨p, hp, h4⟩
          · exact Or.inl h4
          · exact Or.inr ⟨p, List.mem_cons_of_mem _ hp, h4⟩
        · intro hs
          rcases h5 hs with h5 | ⟨p, hp, h5⟩
          · exact Or.inl h5
          · exact Or.inr ⟨p, List.mem_cons_of_mem _ hp, h5⟩
        · intro p hp he
          rcases List.mem_cons.1 hp with rfl | hp
          · rw [he] at h2; exact absurd h2 hm
          · exact h6 p hp he

theorem mem_edgePairs : ∀ p : Fin 3 × Fin 3, p ∈ edgePairs := by decide

/-- The points found are points of the triangles. -/
theorem pts_on (S T : Tri K) (i j : Fin 3) : OnEdge S (pts S T i j).x ∧ OnEdge T (pts S T i j).y := by
  obtain ⟨⟨s, s0, s1, hs⟩, ⟨v, v0, v1, hv⟩⟩ := seg_on (S i) (side S i) (T j) (side T j)
  constructor
  · show OnEdge S (segPoints (S i) (side S i) (T j) (side T j)).x
    rw [hs]; exact onEdge_param S i s0 s1
  · show OnEdge T (segPoints (S i) (side S i) (T j) (side T j)).y
    rw [hv]; exact onEdge_param T j v0 v1

/-! ## The face tests -/

theorem eps_pos : (0 : K) < eps := by unfold eps; positivity

theorem faceTest_skip (U V : Tri K) (sh : Bool) (h : len U ≤ eps) : faceTest U V sh = (none, sh) := by
  unfold faceTest
  simp only
  exact if_neg (not_lt.2 h)

theorem faceTest_none (U V : Tri K) (sh : Bool) (h : pick (fun k => tp U (V k)) = none) : faceTest U V sh = (none, sh) := by
  by_cases hl : eps < len U
  · unfold faceTest
    simp only
    rw [if_pos (show dot (cross (side U 0) (side U 1)) (cross (side U 0) (side U 1)) > eps from hl)]
    change (match pick (fun k => tp U (V k)) with | none => _ | some k => _) = _
    rw [h]
  · exact faceTest_skip U V sh (not_lt.1 hl)

theorem faceTest_some (U V : Tri K) (sh : Bool) (hl : eps < len U) {k : Fin 3} (h : pick (fun k => tp U (V k)) = some k) :
    faceTest U V sh = (if ∀ i, 0 < g U i (V k) then some (tp U (V k) ^ 2 / len U) else none, true) := by
  have hp : 0 < len U := lt_trans eps_pos hl
  unfold faceTest
  simp only
  rw [if_pos (show dot (cross (side U 0) (side U 1)) (cross (side U 0) (side U 1)) > eps from hl)]
  change (match pick (fun k => tp U (V k)) with | none => _ | some k => _) = _
  rw [h]
  simp only
  congr 1
  have hd : dist2 (V k + (tp U (V k) / len U) • nrm U) (V k) = tp U (V k) ^ 2 / len U := by
    rw [dist2_eq, ← proj_eq hp, d2_proj hp]
  by_cases hg : ∀ i, 0 < g U i (V k)
  · rw [if_pos hg, ← hd]
    exact if_pos ⟨hg 0, hg 1, hg 2⟩
  · rw [if_neg hg]
    refine if_neg (fun hc => hg ?_)
    intro i
    fin_cases i
    · exact hc.1
    · exact hc.2.1
    · exact hc.2.2

/-- If the face test passes, its value is the distance. -/
theorem passes_exact {S T : Tri K} (h : 0 < len S) {k : Fin 3} (hp : pick (fun k => tp S (T k)) = some k) (hg : ∀ i, 0 < g S i (T k)) :
    IsTriDist2 S T (tp S (T k) ^ 2 / len S) := by
  have hs := pick_some hp
  refine ⟨⟨proj S (T k), T k, ⟨_, pw_pos h hg, rfl⟩, inTri_corner T k, d2_proj h _⟩, ?_⟩
  intro x y hx hy
  have hx0 := tp_in hx
  have e : dot (y - x) (nrm S) = -tp S y := by
    have : dot (y - x) (nrm S) = tp S x - tp S y := by simp only [tp, dot_sub_left]; ring
    rw [this, hx0, zero_sub]
  have hc := cauchy (y - x) (nrm S)
  rw [e, ← d2_eq_dot] at hc
  have hle : tp S (T k) ^ 2 ≤ tp S y ^ 2 := by
    obtain ⟨v, hv, rfl⟩ := hy
    have hq2 : tp S (T k) ^ 2 ≤ tp S (comb T v) * tp S (T k) := by
      rw [tp_comb S T v hv.2]
      have := mul_le_mul_of_nonneg_left (hs 0).2 (hv.1 0)
      have := mul_le_mul_of_nonneg_left (hs 1).2 (hv.1 1)
      have := mul_le_mul_of_nonneg_left (hs 2).2 (hv.1 2)
      have e1 : tp S (T k) ^ 2 = v 0 * tp S (T k) ^ 2 + v 1 * tp S (T k) ^ 2 + v 2 * tp S (T k) ^ 2 := by
        linear_combination (-tp S (T k) ^ 2) * hv.2
      linarith
    nlinarith [sq_nonneg (tp S (comb T v) - tp S (T k))]
  rw [div_le_iff₀ h]
  have hc : (-tp S y) ^ 2 ≤ d2 x y * len S := hc
  nlinarith

theorem IsTriDist2.symm {S T : Tri K} {m : K} (h : IsTriDist2 S T m) : IsTriDist2 T S m := by
  obtain ⟨⟨x, y, hx, hy, e⟩, h2⟩ := h
  exact ⟨⟨y, x, hy, hx, by rw [d2_comm]; exact e⟩, fun x y hx hy => by rw [d2_comm]; exact h2 y x hy hx⟩

/-- With a common point no face test sees a separating direction. -/
theorem common_pick {S T : Tri K} (h : Common S T) : pick (fun k => tp S (T k)) = none := by
  cases hp : pick (fun k => tp S (T k)) with
  | none => rfl
  | some k =>
    exfalso
    have hs := pick_some hp
    obtain ⟨z, hz1, v, hv, rfl⟩ := h
    have h0 := tp_in hz1
    rw [tp_comb S T v hv.2] at h0
    have hk : 0 < tp S (T k) ^ 2 := by
      have := (hs k).1
      have : 0 < tp S (T k) * tp S (T k) := this
      nlinarith
    have : tp S (T k) ^ 2 ≤ (v 0 * tp S (T 0) + v 1 * tp S (T 1) + v 2 * tp S (T 2)) * tp S (T k) := by
      have := mul_le_mul_of_nonneg_left (hs 0).2 (hv.1 0)
      have := mul_le_mul_of_nonneg_left (hs 1).2 (hv.1 1)
      have := mul_le_mul_of_nonneg_left (hs 2).2 (hv.1 2)
      have e1 : tp S (T k) ^ 2 = v 0 * tp S (T k) ^ 2 + v 1 * tp S (T k) ^ 2 + v 2 * tp S (T k) ^ 2 := by
        linear_combination (-tp S (T k) ^ 2) * hv.2
      linarith
    rw [h0, zero_mul] at this
    linarith

/-! ## Slabs -/

/-- Two points in front of parallel planes. -/
theorem slab {X Y x y : Pt K} (hx : dot (x - X) (Y - X) ≤ 0) (hy : 0 ≤ dot (y - Y) (Y - X)) : d2 X Y ≤ d2 x y := by
  have h := dot_self_nonneg (y - x - (Y - X))
  have e : dot (y - x - (Y - X)) (y - x - (Y - X)) =
      d2 x y - d2 X Y - 2 * (dot (y - Y) (Y - X) - dot (x - X) (Y - X)) := by
    simp only [d2, dot, Pi.sub_apply]; ring
  rw [e] at h
  linarith

theorem comb_shift (S : Tri K) (w : Fin 3 → K) (i : Fin 3) :
    comb S w = w i • S i + w (i + 1) • S (i + 1) + w (i + 2) • S (i + 2) ∧ w 0 + w 1 + w 2 = w i + w (i + 1) + w (i + 2) := by
  fin_cases i
  · exact ⟨rfl, rfl⟩
  · constructor
    · show w 0 • S 0 + w 1 • S 1 + w 2 • S 2 = w 1 • S 1 + w 2 • S 2 + w 0 • S 0
      abel
    · show w 0 + w 1 + w 2 = w 1 + w 2 + w 0
      ring
  · constructor
    · show w 0 • S 0 + w 1 • S 1 + w 2 • S 2 = w 2 • S 2 + w 0 • S 0 + w 1 • S 1
      abel
    · show w 0 + w 1 + w 2 = w 2 + w 0 + w 1
      ring

/-- A triangle lies where its corners lie. -/
theorem halfspace {S : Tri K} {i : Fin 3} {X n z : Pt K} {A : K} (h0 : dot (S i - X) n ≤ 0) (h1 : dot (S (i + 1) - X) n ≤ 0)
    (h2 : dot (S (i + 2) - X) n ≤ A) (hA : 0 ≤ A) (hz : InTri S z) : dot (z - X) n ≤ A := by
  obtain ⟨w, hw, rfl⟩ := hz
  obtain ⟨e1, e2⟩ := comb_shift S w i
  rw [hw.2] at e2
  have e : dot (comb S w - X) n = w i * dot (S i - X) n + w (i + 1) * dot (S (i + 1) - X) n + w (i + 2) * dot (S (i + 2) - X) n := by
    rw [e1]
    simp only [dot_sub_left, dot_add_left, dot_smul_left]
    linear_combination (-dot X n) * e2
  rw [e]
  have w0 := hw.1 i
  have w1 := hw.1 (i + 1)
  have w2 := hw.1 (i + 2)
  have hl : w (i + 2) ≤ 1 := by linarith
  have a0 := mul_nonpos_of_nonneg_of_nonpos w0 h0
  have a1 := mul_nonpos_of_nonneg_of_nonpos w1 h1
  have a2 : w (i + 2) * dot (S (i + 2) - X) n ≤ w (i + 2) * A := mul_le_mul_of_nonneg_left h2 w2
  nlinarith

theorem EdgesRight.first {S T : Tri K} (h : EdgesRight S T) (i j : Fin 3) (k : Fin 3) (hk : k = i ∨ k = i + 1) :
    dot (S k - (pts S T i j).x) ((pts S T i j).y - (pts S T i j).x) ≤ 0 := by
  obtain ⟨⟨s, s0, s1, hs⟩, ⟨v, v0, v1, hv⟩⟩ := seg_on (S i) (side S i) (T j) (side T j)
  apply variation
  intro r r0 r1
  obtain ⟨s', h0, h1, e⟩ : ∃ s' : K, 0 ≤ s' ∧ s' ≤ 1 ∧ (pts S T i j).x + r • (S k - (pts S T i j).x) = S i + s' • (S (i + 1) - S i) := by
    have hs : (pts S T i j).x = S i + s • side S i := hs
    rcases hk with rfl | rfl
    · refine ⟨s - r * s, by nlinarith, by nlinarith, ?_⟩
      rw [hs, side]
      apply vec_ext <;> simp <;> ring
    · refine ⟨s + r * (1 - s), by nlinarith, by nlinarith, ?_⟩
      rw [hs, side]
      apply vec_ext <;> simp <;> ring
  have hv : (pts S T i j).y = T j + v • (T (j + 1) - T j) := hv
  rw [e]
  have := h i j s' v h0 h1 v0 v1
  rw [← hv] at this
  exact this

theorem EdgesRight.second {S T : Tri K} (h : EdgesRight S T) (i j : Fin 3) (k : Fin 3) (hk : k = j ∨ k = j + 1) :
    dot (T k - (pts S T i j).y) ((pts S T i j).x - (pts S T i j).y) ≤ 0 := by
  obtain ⟨⟨s, s0, s1, hs⟩, ⟨v, v0, v1, hv⟩⟩ := seg_on (S i) (side S i) (T j) (side T j)
  apply variation
  intro r r0 r1
  obtain ⟨v', h0, h1, e⟩ : ∃ v' : K, 0 ≤ v' ∧ v' ≤ 1 ∧ (pts S T i j).y + r • (T k - (pts S T i j).y) = T j + v' • (T (j + 1) - T j) := by
    have hv : (pts S T i j).y = T j + v • side T j := hv
    rcases hk with rfl | rfl
    · refine ⟨v - r * v, by nlinarith, by nlinarith, ?_⟩
      rw [hv, side]
      apply vec_ext <;> simp <;> ring
    · refine ⟨v + r * (1 - v), by nlinarith, by nlinarith, ?_⟩
      rw [hv, side]
      apply vec_ext <;> simp <;> ring
  have hs : (pts S T i j).x = S i + s • (S (i + 1) - S i) := hs
  rw [e, d2_comm _ (pts S T i j).x, d2_comm _ (pts S T i j).x]
  have := h i j s v' s0 s1 h0 h1
  rw [← hs] at this
  exact this

theorem EdgesRight.vec {S T : Tri K} (h : EdgesRight S T) (i j : Fin 3) :
    (pts S T i j).x = (pts S T i j).y ∨ ∃ k : K, 0 < k ∧ (pts S T i j).vec = k • ((pts S T i j).y - (pts S T i j).x) := by
  apply seg_vec
  intro v v0 v1
  obtain ⟨⟨s, s0, s1, hs⟩, -⟩ := seg_on (S i) (side S i) (T j) (side T j)
  have := h i j s v s0 s1 v0 v1
  have hs : (pts S T i j).x = S i + s • (S (i + 1) - S i) := hs
  rw [← hs] at this
  exact this

/-- Where the triangles lie with respect to the points found on two edges. -/
theorem EdgesRight.sides {S T : Tri K} (h : EdgesRight S T) (p : Fin 3 × Fin 3) {k : K} (hk : 0 < k)
    (hv : (pts S T p.1 p.2).vec = k • ((pts S T p.1 p.2).y - (pts S T p.1 p.2).x)) :
    (∀ z, InTri S z → dot (z - (pts S T p.1 p.2).x) (pts S T p.1 p.2).vec ≤ if aOf S T p < 0 then 0 else aOf S T p) ∧
    (∀ z, InTri T z → (if bOf S T p > 0 then 0 else bOf S T p) ≤ dot (z - (pts S T p.1 p.2).y) (pts S T p.1 p.2).vec) := by
  constructor
  · intro z hz
    refine halfspace (i := p.1) ?_ ?_ ?_ ?_ hz
    · rw [hv, dot_smul_right]
      exact mul_nonpos_of_nonneg_of_nonpos (le_of_lt hk) (h.first p.1 p.2 _ (Or.inl rfl))
    · rw [hv, dot_smul_right]
      exact mul_nonpos_of_nonneg_of_nonpos (le_of_lt hk) (h.first p.1 p.2 _ (Or.inr rfl))
    · change aOf S T p ≤ _
      split
      · next hc => exact le_of_lt hc
      · exact le_refl _
    · split
      · exact le_refl _
      · next hc => exact not_lt.1 hc
  · intro z hz
    have e : ∀ q : Pt K, dot q ((-1 : K) • (pts S T p.1 p.2).vec) = -dot q (pts S T p.1 p.2).vec := fun q => by rw [dot_smul_right]; ring
    have neg : ∀ q : Pt K, dot q ((pts S T p.1 p.2).x - (pts S T p.1 p.2).y) = -dot q ((pts S T p.1 p.2).y - (pts S T p.1 p.2).x) := fun q => by
      simp only [dot, Pi.sub_apply]; ring
    have := halfspace (i := p.2) (X := (pts S T p.1 p.2).y) (n := (-1 : K) • (pts S T p.1 p.2).vec)
      (A := -(if bOf S T p > 0 then 0 else bOf S T p)) ?_ ?_ ?_ ?_ hz
    · rw [e] at this; linarith
    · rw [e, hv, dot_smul_right]
      have := h.second p.1 p.2 _ (Or.inl rfl)
      rw [neg] at this
      nlinarith [mul_nonneg (le_of_lt hk) (show 0 ≤ dot (T p.2 - (pts S T p.1 p.2).y) ((pts S T p.1 p.2).y - (pts S T p.1 p.2).x) by linarith)]
    · rw [e, hv, dot_smul_right]
      have := h.second p.1 p.2 _ (Or.inr rfl)
      rw [neg] at this
      nlinarith [mul_nonneg (le_of_lt hk) (show 0 ≤ dot (T (p.2 + 1) - (pts S T p.1 p.2).y) ((pts S T p.1 p.2).y - (pts S T p.1 p.2).x) by linarith)]
    · rw [e]
      change -bOf S T p ≤ _
      split
      · next hc => linarith [show 0 < bOf S T p from hc]
      · exact le_refl _
    · split
      · simp
      · next hc => linarith [not_lt.1 hc]

/-- An accepted pair is nearest. -/
theorem EdgesRight.found_exact {S T : Tri K} (h : EdgesRight S T) (p : Fin 3 × Fin 3) (hf : FoundAt S T p) : IsTriDist2 S T (ddOf S T p) := by
  obtain ⟨o1, o2⟩ := pts_on S T p.1 p.2
  refine ⟨⟨_, _, o1.inTri, o2.inTri, rfl⟩, ?_⟩
  intro x y hx hy
  rcases h.vec p.1 p.2 with he | ⟨k, hk, hv⟩
  · have : ddOf S T p = 0 := by
      unfold ddOf
      rw [he]
      simp [d2]
    rw [this]
    exact d2_nonneg x y
  · obtain ⟨s1, s2⟩ := h.sides p hk hv
    have a := s1 x hx
    have b := s2 y hy
    have ha : (if aOf S T p < 0 then 0 else aOf S T p) ≤ 0 := by
      split
      · exact le_refl _
      · exact hf.1
    have hb : 0 ≤ (if bOf S T p > 0 then 0 else bOf S T p) := by
      split
      · exact le_refl _
      · exact hf.2
    have a := le_trans a ha
    have b := le_trans hb b
    rw [hv, dot_smul_right] at a b
    exact slab (by by_contra hc; linarith [mul_pos hk (not_le.1 hc)]) (by by_contra hc; linarith [mul_neg_of_pos_of_neg hk (not_le.1 hc)])

/-- With a common point no pair of edges shows the triangles disjoint. -/
theorem EdgesRight.common_shown {S T : Tri K} (h : EdgesRight S T) (hc : Common S T) (p : Fin 3 × Fin 3) : ¬ ShownAt S T p := by
  intro hs
  unfold ShownAt at hs
  obtain ⟨z, z1, z2⟩ := hc
  rcases h.vec p.1 p.2 with he | ⟨k, hk, hv⟩
  · rw [he, sub_self, dot_zero_left] at hs
    have ha : 0 ≤ (if aOf S T p < 0 then 0 else aOf S T p) := by
      split
      · exact le_refl _
      · next hc => exact not_lt.1 hc
    have hb : (if bOf S T p > 0 then 0 else bOf S T p) ≤ 0 := by
      split
      · exact le_refl _
      · next hc => exact not_lt.1 hc
    linarith
  · obtain ⟨s1, s2⟩ := h.sides p hk hv
    have a := s1 z z1
    have b := s2 z z2
    rw [dot_sub_left] at a b hs
    linarith

/-- A nearest pair on edges, with the triangles apart, is accepted. -/
theorem EdgesRight.nearest_found {S T : Tri K} (h : EdgesRight S T) (hc : ¬ Common S T) (p : Fin 3 × Fin 3)
    (hm : ∀ x y, InTri S x → InTri T y → ddOf S T p ≤ d2 x y) : FoundAt S T p := by
  obtain ⟨o1, o2⟩ := pts_on S T p.1 p.2
  rcases h.vec p.1 p.2 with he | ⟨k, hk, hv⟩
  · exact absurd ⟨_, o1.inTri, he ▸ o2.inTri⟩ hc
  · constructor
    · unfold aOf
      rw [hv, dot_smul_right]
      refine mul_nonpos_of_nonneg_of_nonpos (le_of_lt hk) (variation ?_)
      intro r r0 r1
      exact hm _ _ (inTri_line o1.inTri (inTri_corner S _) r0 r1) o2.inTri
    · unfold bOf
      rw [hv, dot_smul_right]
      have : dot (T (p.2 + 2) - (pts S T p.1 p.2).y) ((pts S T p.1 p.2).x - (pts S T p.1 p.2).y) ≤ 0 := by
        apply variation
        intro r r0 r1
        rw [d2_comm _ (pts S T p.1 p.2).x, d2_comm _ (pts S T p.1 p.2).x]
        exact hm _ _ o1.inTri (inTri_line o2.inTri (inTri_corner T _) r0 r1)
      have e : dot (T (p.2 + 2) - (pts S T p.1 p.2).y) ((pts S T p.1 p.2).x - (pts S T p.1 p.2).y) =
          -dot (T (p.2 + 2) - (pts S T p.1 p.2).y) ((pts S T p.1 p.2).y - (pts S T p.1 p.2).x) := by
        simp only [dot, Pi.sub_apply]; ring
      rw [e] at this
      exact mul_nonneg (le_of_lt hk) (by linarith)

/-! ## C100 -/

/-- The square of twice the area. -/
def area2 (S : Tri K) : K := dot (cross (S 1 - S 0) (S 2 - S 1)) (cross (S 1 - S 0) (S 2 - S 1))

/-- **C100 (partial).** If neither triangle is tiny without being degenerate (the square of twice its area is 0 or more than 1e-15) and
`SegPoints` finds nearest points on all nine pairs of edges, then `TriDist` returns the distance of the triangles: attained by two of their
points, and not more than the distance of any two of their points. Missing: the two conditions cannot be dropped, see the counterexamples. -/
theorem C100_exact_partial (S T : Tri K) (hS : area2 S = 0 ∨ 1 / 10 ^ 15 < area2 S) (hT : area2 T = 0 ∨ 1 / 10 ^ 15 < area2 T)
    (hE : EdgesRight S T) : ∃ m : K, triDist2 S T = (m : WithTop K) ∧ IsTriDist2 S T m := by
  have hS : len S = 0 ∨ eps < len S := hS
  have hT : len T = 0 ∨ eps < len T := hT
  unfold triDist2 triDistSeg
  rcases segLoop_spec S T edgePairs ⊤ false with ⟨p, -, h1, h2⟩ | ⟨m, sh, h1, -, h3, h4, h5, h6⟩
  · rw [h1]
    exact ⟨_, rfl, hE.found_exact p h2⟩
  · rw [h1]
    by_cases hc : Common S T
    · have e1 : ∀ b, faceTest S T b = (none, b) := fun b => faceTest_none S T b (common_pick hc)
      have e2 : ∀ b, faceTest T S b = (none, b) := fun b => faceTest_none T S b (common_pick hc.symm)
      have hsh : sh = false := by
        cases sh with
        | false => rfl
        | true =>
          rcases h5 rfl with h5 | ⟨p, -, h5⟩
          · exact absurd h5 (by simp)
          · exact absurd h5 (hE.common_shown hc p)
      refine ⟨0, ?_, ?_⟩
      · simp only [triDistOther, e1, e2, hsh]
      · obtain ⟨z, z1, z2⟩ := hc
        exact ⟨⟨z, z, z1, z2, by simp [d2]⟩, fun x y _ _ => d2_nonneg x y⟩
    · have face : ∀ {U V : Tri K} (_ : len U = 0 ∨ eps < len U) (_ : 0 < len U ∧ Passes U V) (b : Bool),
          ∃ d, faceTest U V b = (some d, true) ∧ IsTriDist2 U V d := by
        intro U V hU hP b
        obtain ⟨hl, k, hk, hg⟩ := hP
        have he : eps < len U := hU.resolve_left (ne_of_gt hl)
        refine ⟨_, ?_, passes_exact hl hk hg⟩
        rw [faceTest_some U V b he hk, if_pos hg]
      have exact_some : ∀ {U V : Tri K} {b : Bool} {d : K} {b' : Bool}, faceTest U V b = (some d, b') → IsTriDist2 U V d := by
        intro U V b d b' h
        by_cases hl : eps < len U
        · cases hk : pick (fun k => tp U (V k)) with
          | none => rw [faceTest_none U V b hk] at h; simp at h
          | some k =>
            rw [faceTest_some U V b hl hk] at h
            by_cases hg : ∀ i, 0 < g U i (V k)
            · rw [if_pos hg] at h
              injection h with h _
              injection h with h
              rw [← h]
              exact passes_exact (lt_trans eps_pos hl) hk hg
            · rw [if_neg hg] at h; simp at h
        · rw [faceTest_skip U V b (not_lt.1 hl)] at h; simp at h
      have hP : (0 < len S ∧ Passes S T) ∨ (0 < len T ∧ Passes T S) := by
        by_contra hn
        push Not at hn
        -- then the nearest points are on edges, and would have been accepted
        have hmin : ∀ x y, InTri S x → InTri T y → ∃ p, ddOf S T p ≤ d2 x y := by
          intro x y hx hy
          rcases descent hx hy with h | h | h | ⟨x', y', hx', hy', hd⟩
          · exact absurd h hc
          · exact absurd h.2 (hn.1 h.1)
          · exact absurd h.2 (hn.2 h.1)
          · obtain ⟨i, s, s0, s1, rfl⟩ := hx'.param
            obtain ⟨j, v, v0, v1, rfl⟩ := hy'.param
            exact ⟨(i, j), le_trans (hE i j s v s0 s1 v0 v1) hd⟩
        obtain ⟨p, hp⟩ : ∃ p, m = ddTop S T p := by
          rcases h4 with h4 | ⟨p, -, h4⟩
          · have := h3 (0, 0) (mem_edgePairs _)
            rw [h4, top_le_iff] at this
            exact absurd this (WithTop.coe_ne_top)
          · exact ⟨p, h4⟩
        refine h6 p (mem_edgePairs _) hp (hE.nearest_found hc p ?_)
        intro x y hx hy
        obtain ⟨q, hq⟩ := hmin x y hx hy
        have := h3 q (mem_edgePairs _)
        rw [hp] at this
        exact le_trans (WithTop.coe_le_coe.1 this) hq
      simp only [triDistOther]
      cases hf : faceTest S T sh with
      | mk o b =>
        cases o with
        | some d => exact ⟨d, rfl, exact_some hf⟩
        | none =>
          rcases hP with hP | hP
          · obtain ⟨d, hd, -⟩ := face hS hP sh
            rw [hf] at hd
            simp at hd
          · obtain ⟨d, hd, he⟩ := face hT hP b
            simp only [hd]
            exact ⟨d, rfl, he.symm⟩

end TDP.TriDist
