import Verif.Measures.Props
/-! # C92: barycentres, lengths, surfaces, flatness, removal error -/
namespace TDP.Measures
open TDP.Codec TDP.Traversal

/-- **C92 (barycentre).** The three ways of computing the barycentre of a facet give the mean of its corners, from wherever they
start. It lies in every half-space that contains the corners, so in their convex hull; it moves and scales with them. -/
theorem C92_barycentre (m : Mesh R3) (hm : m.WF) (h g : Nat) (hh : h ∈ m.darts) (hg : g ∈ m.darts) (hf : m.face h = m.face g) :
    gateBarycenter m h = mean (facePos m h) ∧ facetBarycenter m h = mean (facePos m h) ∧
    polygonBarycenter (facePos m h) = mean (facePos m h) ∧ gateBarycenter m g = gateBarycenter m h ∧
    (∀ (u : R3) (k : ℝ), (∀ q ∈ facePos m h, dot u q ≤ k) → dot u (gateBarycenter m h) ≤ k) := by
  refine ⟨gateBarycenter_eq m h, facetBarycenter_eq m h, polygonBarycenter_eq _, ?_, fun u k hk => ?_⟩
  · rw [gateBarycenter_eq, gateBarycenter_eq, mean_rotated (facePos_rotated hm hh hg hf)]
  · rw [gateBarycenter_eq]; exact mean_halfspace (facePos_ne hm hh) hk

/-- The barycentre follows moves and scalings. -/
theorem C92_barycentre_moves (p : List R3) (hp : p ≠ []) (t : R3) (k : ℝ) :
    polygonBarycenter (moved t p) = polygonBarycenter p + t ∧ polygonBarycenter (scaled k p) = k • polygonBarycenter p := by
  rw [polygonBarycenter_eq, polygonBarycenter_eq, polygonBarycenter_eq, mean_moved hp, mean_scaled]
  exact ⟨rfl, rfl⟩

/-! ### Triangles -/

theorem heron (A B C a b c : ℝ) (ha : a * a = A) (hb : b * b = B) (hc : c * c = C) :
    (a + b + c) / 2 * ((a + b + c) / 2 - a) * ((a + b + c) / 2 - b) * ((a + b + c) / 2 - c) =
      (2 * (A * B + B * C + C * A) - (A * A + B * B + C * C)) / 16 := by
  subst ha hb hc; ring

/-- **C92 (Heron).** The surface computed from the three side lengths is half the length of the cross product of two sides,
for every triangle, also a degenerate one. -/
theorem C92_triangle_surface (p q r : R3) : triangleSurface p q r = norm (cross (q - p) (r - p)) / 2 := by
  have e : (2 * (dot (p - q) (p - q) * dot (q - r) (q - r) + dot (q - r) (q - r) * dot (r - p) (r - p) +
        dot (r - p) (r - p) * dot (p - q) (p - q)) -
      (dot (p - q) (p - q) * dot (p - q) (p - q) + dot (q - r) (q - r) * dot (q - r) (q - r) +
        dot (r - p) (r - p) * dot (r - p) (r - p))) / 16 =
      (norm (cross (q - p) (r - p)) / 2) * (norm (cross (q - p) (r - p)) / 2) := by
    have : (norm (cross (q - p) (r - p)) / 2) * (norm (cross (q - p) (r - p)) / 2) =
        dot (cross (q - p) (r - p)) (cross (q - p) (r - p)) / 4 := by rw [← norm_sq]; ring
    rw [this]
    simp only [dot, cross0, cross1, cross2, Pi.sub_apply]
    ring
  unfold triangleSurface
  simp only
  rw [heron _ _ _ (len p q) (len q r) (len r p) (Real.mul_self_sqrt (dot_nonneg (p - q))) (Real.mul_self_sqrt (dot_nonneg (q - r)))
    (Real.mul_self_sqrt (dot_nonneg (r - p))), e]
  have hn := norm_nonneg (cross (q - p) (r - p))
  by_cases hz : norm (cross (q - p) (r - p)) / 2 * (norm (cross (q - p) (r - p)) / 2) ≤ 0
  · rw [if_pos hz]
    have : norm (cross (q - p) (r - p)) / 2 = 0 := by
      rcases mul_eq_zero.mp (le_antisymm hz (mul_self_nonneg _)) with h | h <;> exact h
    exact this.symm
  · rw [if_neg hz, Real.sqrt_mul_self (by linarith)]

/-! ### Facets -/

theorem fanSurface_eq (b : R3) (p : List R3) :
    fanSurface b p = loopSum (fun x y => norm (cross (x - b) (y - b)) / 2) p := by
  unfold fanSurface
  rw [foldl_sum, zero_add, range_sum]
  unfold loopSum
  refine Finset.sum_congr rfl (fun i _ => ?_)
  rw [C92_triangle_surface]

theorem faceSurface_eq (m : Mesh R3) (h : Nat) :
    faceSurface m h = fanSurface (mean (facePos m h)) (facePos m h) := by
  unfold faceSurface; rw [gateBarycenter_eq]; rfl

theorem fan_ge (b : R3) (p : List R3) : norm (area2 p) / 2 ≤ fanSurface b p := by
  rw [fanSurface_eq, ← area2_shift b p]
  have h1 := norm_loopSum (fun x y => cross (x - b) (y - b)) p
  have e : loopSum (fun x y => norm (cross (x - b) (y - b)) / 2) p = 1 / 2 * loopSum (fun x y => norm (cross (x - b) (y - b))) p := by
    rw [mul_loopSum]; exact loopSum_congr (fun a c _ => by ring)
  rw [e]
  linarith

theorem norm_parallel {u w : R3} (hw : dot u u • w = dot u w • u) (hpos : 0 ≤ dot u w) : norm u * norm w = dot u w := by
  by_cases hu : u = 0
  · subst hu; rw [(norm_zero_iff 0).mpr rfl]; simp [dot]
  have h := congrArg norm hw
  rw [norm_smul, norm_smul, abs_of_nonneg (dot_nonneg u), abs_of_nonneg hpos, ← norm_sq] at h
  have hp := norm_pos hu
  have : norm u * (norm u * norm w) = norm u * dot u w := by linarith
  exact mul_left_cancel₀ hp.ne' this

theorem fan_eq {u o : R3} (hu : u ≠ 0) {p : List R3} (hne : p ≠ []) (hp : InPlane u o p) (hs : Star u p) :
    fanSurface (mean p) p = norm (area2 p) / 2 := by
  have hpl : InPlane u (mean p) p := by
    intro q hq
    have h1 := hp q hq
    have h2 := mean_inPlane hne hp
    rw [dot_sub_right] at h1 h2 ⊢
    linarith
  have hside : ∀ a b, Side p a b → norm u * norm (cross (a - mean p) (b - mean p)) = dot u (cross (a - mean p) (b - mean p)) :=
    fun a b hab => norm_parallel (cross_plane (hpl a hab.left) (hpl b hab.right)) (hs a b hab)
  have harea : dot u (area2 p) = loopSum (fun a b => dot u (cross (a - mean p) (b - mean p))) p := by
    rw [← area2_shift (mean p) p, dot_loopSum]
  have hpos : 0 ≤ dot u (area2 p) := by rw [harea]; exact loopSum_nonneg hs
  have hall := norm_parallel (area2_plane hp) hpos
  have : norm u * fanSurface (mean p) p = norm u * (norm (area2 p) / 2) := by
    rw [fanSurface_eq, mul_loopSum, ← mul_div_assoc, hall, harea]
    rw [div_eq_inv_mul, mul_loopSum]
    refine loopSum_congr (fun a b hab => ?_)
    rw [← hside a b hab]; ring
  exact mul_left_cancel₀ (norm_pos hu).ne' this

/-- **C92 (surface and perimeter of a facet).** Both are the same from every halfedge of the facet. The perimeter is the sum of
the lengths of the sides. The surface is at least the length of the area vector, and exactly that for a plane facet all of whose
corners are seen in order from the barycentre, such as a convex one. -/
theorem C92_facet_surface (m : Mesh R3) (hm : m.WF) (h g : Nat) (hh : h ∈ m.darts) (hg : g ∈ m.darts) (hf : m.face h = m.face g) :
    faceSurface m g = faceSurface m h ∧ facePerimeter m g = facePerimeter m h ∧
    facePerimeter m h = loopSum (fun a b => norm (b - a)) (facePos m h) ∧
    norm (area2 (facePos m h)) / 2 ≤ faceSurface m h ∧
    (∀ u o : R3, u ≠ 0 → InPlane u o (facePos m h) → Star u (facePos m h) → faceSurface m h = norm (area2 (facePos m h)) / 2) := by
  have hr := facePos_rotated hm hh hg hf
  have per : ∀ x ∈ m.darts, facePerimeter m x = loopSum (fun a b => norm (b - a)) (facePos m x) := by
    intro x hx
    rw [← around_sum (fun a b => norm (b - a)) hm hx]
    unfold facePerimeter
    rw [foldl_sum, zero_add]
    have e1 : ((around m.h x).map (fun d => edgeLen m (m.next d))).sum = ((around m.h x).map (edgeLen m)).sum := by
      have : (around m.h x).map (fun d => edgeLen m (m.next d)) = ((around m.h x).map m.next).map (edgeLen m) := by
        rw [List.map_map]; rfl
      rw [this, around_map_next hm hx]
      exact ((List.rotate_perm _ 1).map _).sum_eq
    rw [← e1]
    congr 1
    refine List.map_congr_left (fun d hd => ?_)
    have hd' : d ∈ m.darts := ((mem_around hm.h hx d).mp hd).1
    have hs : m.vert (m.opp (m.next d)) = m.vert d := hm.src_next d hd'
    unfold edgeLen len norm
    rw [hs]
  refine ⟨?_, ?_, per h hh, ?_, fun u o hu hp hs => ?_⟩
  · rw [faceSurface_eq, faceSurface_eq, fanSurface_eq, fanSurface_eq, mean_rotated hr, loopSum_rotated _ hr]
  · rw [per g hg, per h hh, loopSum_rotated _ hr]
  · rw [faceSurface_eq]; exact fan_ge _ _
  · rw [faceSurface_eq]; exact fan_eq hu (facePos_ne hm hh) hp hs

/-! ### Flatness -/

/-- The mean of the squared distances from the corners to their mean. -/
noncomputable def spread (p : List R3) : ℝ := (p.map (fun q => dot (q - mean p) (q - mean p))).sum / p.length

theorem isPlanar_iff (p : List R3) (ε : ℝ) :
    isPlanar p ε = true ↔ ∀ q ∈ p, dot (polygonNormal p) (q - mean p) * dot (polygonNormal p) (q - mean p) ≤ ε * spread p := by
  have hs : ((List.range p.length).foldl (fun s i => s + dot (mean p - p.getD i 0) (mean p - p.getD i 0)) (0 : ℝ)) / (p.length : ℝ) =
      spread p := by
    unfold spread
    rw [foldl_sum, zero_add, range_sum]
    have h2 := loopSum_fst (fun q : R3 => dot (q - mean p) (q - mean p)) p
    unfold loopSum at h2
    rw [← h2]
    congr 1
    refine Finset.sum_congr rfl (fun i _ => ?_)
    simp only [dot, Pi.sub_apply]; ring
  unfold isPlanar
  simp only
  rw [polygonBarycenter_eq, hs, List.all_eq_true]
  simp only [List.mem_range, decide_eq_true_eq, not_lt, gt_iff_lt]
  constructor
  · intro h q hq
    obtain ⟨i, hi, rfl⟩ := List.mem_iff_getElem.mp hq
    have := h i hi
    rw [List.getD_eq_getElem?_getD, List.getElem?_eq_getElem hi] at this
    exact this
  · intro h i hi
    exact h _ (getD_mem hi)

/-- **C92 (flatness).** The test says yes exactly when every corner is at most the square root of the tolerance, relative to
the size of the polygon, away from the plane through the mean of the corners perpendicular to the normal. With tolerance zero it
is yes exactly for the polygons in a plane and those whose area vector is zero. -/
theorem C92_planar (p : List R3) (hp : p ≠ []) (ε : ℝ) :
    (isPlanar p ε = true ↔ ∀ q ∈ p, dot (polygonNormal p) (q - mean p) ^ 2 ≤ ε * spread p) ∧
    (isPlanar p 0 = true ↔ area2 p = 0 ∨ ∃ u o, u ≠ 0 ∧ InPlane u o p) := by
  refine ⟨?_, ?_⟩
  · rw [isPlanar_iff]; simp only [pow_two]
  · rw [isPlanar_iff]
    simp only [zero_mul]
    constructor
    · intro h
      by_cases hz : area2 p = 0
      · left; exact hz
      · right
        refine ⟨polygonNormal p, mean p, ?_, fun q hq => ?_⟩
        · rw [polygonNormal_eq]
          rcases normalize_unit (area2 p) with ⟨h0, _⟩ | ⟨_, h1⟩
          · exact absurd h0 hz
          · intro e; rw [e] at h1; simp [dot] at h1
        · exact mul_self_eq_zero.mp (le_antisymm (h q hq) (mul_self_nonneg _))
    · rintro (hz | ⟨u, o, hu, hpl⟩) q hq
      · rw [polygonNormal_eq, hz, normalize_zero]; simp [dot]
      · have hd : dot u (q - mean p) = 0 := by
          have h1 := hpl q hq
          have h2 := mean_inPlane hp hpl
          rw [dot_sub_right] at h1 h2 ⊢
          linarith
        have hn : dot (normalize u) (q - mean p) = 0 := by
          rw [normalize_eq, if_neg hu, dot_smul_left, hd, mul_zero]
        obtain ⟨k1, k2, k3⟩ := C92_normal_of_plane u o hu p hpl
        rcases lt_trichotomy (dot u (area2 p)) 0 with h | h | h
        · rw [k2 h, dot_comm, dot_neg_right, dot_comm, hn]; simp
        · rw [k3 h]; simp [dot]
        · rw [k1 h, hn]; simp

/-- **C92 (flatness and moves).** The answer is the same for a moved or scaled polygon, and for another first corner: unlike in the
convexity test (C76), the tolerance is relative. -/
theorem C92_planar_moves (p : List R3) (hp : p ≠ []) (ε : ℝ) (t : R3) (k : ℝ) (hk : 0 < k) :
    isPlanar (moved t p) ε = isPlanar p ε ∧ isPlanar (scaled k p) ε = isPlanar p ε ∧
    ∀ i, isPlanar (p.rotate i) ε = isPlanar p ε := by
  obtain ⟨n1, n2, -, n4⟩ := C92_normal_moves p t k hk
  refine ⟨?_, ?_, fun i => ?_⟩
  · rw [Bool.eq_iff_iff, isPlanar_iff, isPlanar_iff, n1, mean_moved hp]
    have hs : spread (moved t p) = spread p := by
      unfold spread
      rw [mean_moved hp]
      unfold moved
      rw [List.map_map, List.length_map]
      congr 3
      funext q
      simp only [Function.comp, add_sub_add_right_eq_sub]
    rw [hs]
    unfold moved
    simp only [List.mem_map, forall_exists_index, and_imp, forall_apply_eq_imp_iff₂, add_sub_add_right_eq_sub]
  · rw [Bool.eq_iff_iff, isPlanar_iff, isPlanar_iff, n2, mean_scaled]
    have hs : spread (scaled k p) = k * k * spread p := by
      unfold spread
      rw [mean_scaled]
      unfold scaled
      rw [List.map_map, List.length_map, ← mul_div_assoc, ← List.sum_map_mul_left]
      congr 3
      funext q
      simp only [Function.comp, ← smul_sub]
      rw [dot_smul_left, dot_smul_right]; ring
    rw [hs]
    unfold scaled
    simp only [List.mem_map, forall_exists_index, and_imp, forall_apply_eq_imp_iff₂, ← smul_sub, dot_smul_right]
    have hkk : 0 < k * k := mul_pos hk hk
    refine forall₂_congr (fun q _ => ?_)
    constructor
    · intro h; refine le_of_mul_le_mul_left ?_ hkk; linarith
    · intro h; have := mul_le_mul_of_nonneg_left h hkk.le; linarith
  · have hr : p.rotate i ~r p := (show p ~r p.rotate i from ⟨i, rfl⟩).symm
    rw [Bool.eq_iff_iff, isPlanar_iff, isPlanar_iff, n4, mean_rotated hr]
    have hs : spread (p.rotate i) = spread p := by
      unfold spread
      rw [mean_rotated hr, List.length_rotate, (hr.perm.map _).sum_eq]
    rw [hs]
    simp only [List.mem_rotate]

/-! ### The removal error -/

theorem ringArea_eq (p : List R3) : ringArea p = fanSurface (mean p) p := by
  rw [fanSurface_eq]
  unfold ringArea
  rw [foldl_sum, zero_add, range_sum, polygonBarycenter_eq]
  unfold loopSum
  refine Finset.sum_congr rfl (fun i _ => ?_)
  rw [C92_triangle_surface]
  generalize p.getD i 0 = a
  generalize p.getD ((i + 1) % p.length) 0 = c
  congr 2
  apply ext3 <;> simp only [cross0, cross1, cross2, Pi.sub_apply] <;> ring

theorem ringVolume_eq (p : List R3) :
    ringVolume p = 1 / 3 * dot (polygonNormal p) (mean p) * (norm (area2 p) / 2 - ringArea p) := by
  unfold ringVolume
  rw [polygonBarycenter_eq]
  simp only
  rw [foldl_sum, range_sum]
  have tri : ∀ a b c : R3, dot (fun i => 1 / 3 * triangleSurface a b c * a i) (triangleNormal a b c) = 1 / 6 * dot c (cross a b) := by
    intro a b c
    have e : (fun i => 1 / 3 * triangleSurface a b c * a i) = (1 / 3 * triangleSurface a b c) • a := rfl
    have e2 : cross (b - a) (c - b) = cross (b - a) (c - a) := by
      apply ext3 <;> simp only [cross0, cross1, cross2, Pi.sub_apply] <;> ring
    rw [e, dot_smul_left, C92_triangle_surface]
    unfold triangleNormal
    rw [e2]
    have h := congrArg (dot a) (smul_normalize (cross (b - a) (c - a)))
    rw [dot_smul_right] at h
    have h3 : dot a (cross (b - a) (c - a)) = dot c (cross a b) := by
      simp only [dot, cross0, cross1, cross2, Pi.sub_apply]; ring
    rw [h3] at h
    linarith
  simp only [tri]
  have hsum : ∑ i ∈ Finset.range p.length, 1 / 6 * dot (mean p) (cross (p.getD i 0) (p.getD ((i + 1) % p.length) 0)) =
      1 / 6 * dot (mean p) (area2 p) := by
    unfold area2
    rw [dot_loopSum, mul_loopSum]; rfl
  rw [hsum]
  have e : (fun c => 1 / 3 * ringArea p * mean p c) = (1 / 3 * ringArea p) • mean p := rfl
  rw [e, dot_smul_left, dot_neg_right]
  have h := congrArg (dot (mean p)) (smul_normalize (area2 p))
  rw [dot_smul_right, ← polygonNormal_eq, dot_comm _ (polygonNormal p)] at h
  rw [← h, dot_comm _ (polygonNormal p)]
  ring

theorem ringLength_eq (p : List R3) : ringLength p = loopSum (fun a b => norm (b - a)) p := by
  unfold ringLength
  rw [foldl_sum, zero_add, range_sum]
  rfl

/-- **C93 (removal error).** The error measure for removing a vertex never looks at the vertex. It is positive exactly when the
barycentre of its neighbours is behind the plane through the origin perpendicular to their normal and they are not flat (the
fan from the barycentre is larger than the area vector); it is never negative. -/
theorem C93_removal_error_partial (v w : R3) (p : List R3) :
    removalError v p = removalError w p ∧ 0 ≤ removalError v p ∧
    (0 < removalError v p ↔ dot (polygonNormal p) (polygonBarycenter p) < 0 ∧ norm (area2 p) / 2 < ringArea p) := by
  have hge : norm (area2 p) / 2 ≤ ringArea p := by rw [ringArea_eq]; exact fan_ge _ _
  have hlen : 0 ≤ ringLength p := by rw [ringLength_eq]; exact loopSum_nonneg (fun _ _ _ => norm_nonneg _)
  have hiff : 0 < ringVolume p ↔ dot (polygonNormal p) (polygonBarycenter p) < 0 ∧ norm (area2 p) / 2 < ringArea p := by
    rw [ringVolume_eq, polygonBarycenter_eq]
    constructor
    · intro h
      by_cases hd : dot (polygonNormal p) (mean p) < 0
      · refine ⟨hd, ?_⟩
        by_contra hn
        have : norm (area2 p) / 2 = ringArea p := le_antisymm hge (not_lt.mp hn)
        rw [this, sub_self, mul_zero] at h
        exact lt_irrefl _ h
      · exfalso
        have h1 : 0 ≤ 1 / 3 * dot (polygonNormal p) (mean p) := by linarith [not_lt.mp hd]
        have := mul_nonpos_of_nonneg_of_nonpos h1 (by linarith : norm (area2 p) / 2 - ringArea p ≤ 0)
        linarith
    · rintro ⟨h1, h2⟩
      exact mul_pos_of_neg_of_neg (by linarith) (by linarith)
  have hpos : 0 < ringVolume p → 0 < ringLength p := by
    intro h
    refine lt_of_le_of_ne hlen (fun e => ?_)
    have hz := (loopSum_zero_iff (p := p) (f := fun a b => norm (b - a)) (fun _ _ _ => norm_nonneg _)).mp
      (by rw [← ringLength_eq]; exact e.symm)
    have hA : ringArea p = 0 := by
      rw [ringArea_eq, fanSurface_eq, loopSum_zero_iff (fun a b _ => by have := norm_nonneg (cross (a - mean p) (b - mean p)); linarith)]
      intro a b hab
      have hb : b = a := sub_eq_zero.mp ((norm_zero_iff _).mp (hz a b hab))
      have : cross (a - mean p) (b - mean p) = 0 := by
        rw [hb]
        apply ext3 <;> simp only [cross0, cross1, cross2, Pi.zero_apply] <;> ring
      rw [this, (norm_zero_iff 0).mpr rfl, zero_div]
    have h2 := (hiff.mp h).2
    have := norm_nonneg (area2 p)
    rw [hA] at h2
    linarith
  refine ⟨rfl, ?_, ?_⟩
  · unfold removalError
    by_cases h : ringVolume p > 0
    · rw [if_pos h]
      exact div_nonneg (mul_nonneg (Real.rpow_nonneg (le_of_lt h) _) (Nat.cast_nonneg _)) hlen
    · rw [if_neg h]
  · rw [← hiff]
    unfold removalError
    by_cases h : ringVolume p > 0
    · rw [if_pos h]
      refine ⟨fun _ => h, fun _ => ?_⟩
      have hn : 0 < p.length := by
        by_contra hc
        have : p = [] := List.length_eq_zero_iff.mp (by omega)
        subst this
        have := hpos h
        rw [ringLength_eq] at this
        simp [loopSum] at this
      exact div_pos (mul_pos (Real.rpow_pos_of_pos h _) (by exact_mod_cast hn)) (hpos h)
    · rw [if_neg h]
      exact ⟨fun h => absurd h (lt_irrefl _), fun h' => absurd h' h⟩

theorem ringArea_moved {p : List R3} (hp : p ≠ []) (t : R3) : ringArea (moved t p) = ringArea p := by
  rw [ringArea_eq, ringArea_eq, fanSurface_eq, fanSurface_eq, mean_moved hp]
  unfold moved
  rw [loopSum_map]
  exact loopSum_congr (fun a b _ => by rw [add_sub_add_right_eq_sub, add_sub_add_right_eq_sub])

/-- **C93 (removal error, what fails).** However far the removed vertex is from its neighbours, the error is zero when these lie in
a plane, in order around their barycentre; and for any other ring with a normal the error depends on where the
object is: it is zero in one place and positive in another. -/
theorem C93_counterexample (v : R3) (p : List R3) (hp : p ≠ []) :
    ((∃ u o, u ≠ 0 ∧ InPlane u o p ∧ Star u p) → removalError v p = 0) ∧
    (area2 p ≠ 0 → norm (area2 p) / 2 < ringArea p →
      (∃ t, removalError (v + t) (moved t p) = 0) ∧ ∃ t, 0 < removalError (v + t) (moved t p)) := by
  refine ⟨?_, fun hz hlt => ?_⟩
  · rintro ⟨u, o, hu, hpl, hs⟩
    obtain ⟨-, h0, hiff⟩ := C93_removal_error_partial v v p
    refine le_antisymm (not_lt.mp (fun h => ?_)) h0
    have := (hiff.mp h).2
    rw [ringArea_eq, fan_eq hu hp hpl hs] at this
    exact lt_irrefl _ this
  · have hn : dot (polygonNormal p) (polygonNormal p) = 1 := by
      rw [polygonNormal_eq]
      rcases normalize_unit (area2 p) with ⟨h0, _⟩ | ⟨_, h1⟩
      · exact absurd h0 hz
      · exact h1
    have hd : ∀ k : ℝ, dot (polygonNormal (moved (k • polygonNormal p) p)) (polygonBarycenter (moved (k • polygonNormal p) p)) =
        dot (polygonNormal p) (mean p) + k := by
      intro k
      rw [(C92_normal_moves p (k • polygonNormal p) 1 one_pos).1, polygonBarycenter_eq, mean_moved hp, dot_add_right,
        dot_smul_right, hn, mul_one]
    obtain ⟨d, hd0⟩ : ∃ d, dot (polygonNormal p) (mean p) = d := ⟨_, rfl⟩
    rw [hd0] at hd
    constructor
    · refine ⟨(-d) • polygonNormal p, ?_⟩
      obtain ⟨-, h0, hiff⟩ := C93_removal_error_partial (v + (-d) • polygonNormal p) v (moved ((-d) • polygonNormal p) p)
      refine le_antisymm (not_lt.mp (fun h => ?_)) h0
      have := (hiff.mp h).1
      rw [hd] at this
      linarith
    · refine ⟨(-d - 1) • polygonNormal p, ?_⟩
      rw [(C93_removal_error_partial _ v _).2.2, hd, area2_moved, ringArea_moved hp]
      exact ⟨by linarith, hlt⟩

/-- **C92 (degree).** The degree without new edges counts the halfedges into the vertex that are not new. -/
theorem C92_degree_not_new (m : Mesh R3) (hm : m.WF) (isNew : Nat → Bool) (h : Nat) (hh : h ∈ m.darts) :
    vertexDegreeNotNew m isNew h = (m.darts.filter (fun d => m.vert d = m.vert h ∧ isNew d = false)).card := by
  have ho := hm.opp_mem hh
  have cnt : ∀ (l : List Nat) (k : Nat), l.foldl (fun k hit => if !isNew hit then k + 1 else k) k =
      k + (l.filter (fun d => !isNew d)).length := by
    intro l
    induction l with
    | nil => intro k; simp
    | cons a l ih =>
      intro k
      rw [List.foldl_cons, ih]
      cases ha : isNew a <;> simp [ha]; omega
  unfold vertexDegreeNotNew
  rw [cnt, zero_add]
  have hnd : ((m.ring (m.opp h)).map m.opp).Nodup := by
    refine List.Nodup.map_on (fun x hx y hy e => ?_) (ring_nodup hm ho)
    have hx' := ((mem_ring hm ho x).mp hx).1
    have hy' := ((mem_ring hm ho y).mp hy).1
    have := congrArg m.opp e
    rwa [hm.opp_opp hx', hm.opp_opp hy'] at this
  rw [← List.toFinset_card_of_nodup (hnd.filter _)]
  congr 1
  ext d
  rw [List.mem_toFinset, List.mem_filter, Finset.mem_filter, List.mem_map]
  simp only [Bool.not_eq_true']
  constructor
  · rintro ⟨⟨x, hx, rfl⟩, hn⟩
    obtain ⟨hx1, hx2⟩ := (mem_ring hm ho x).mp hx
    refine ⟨hm.opp_mem hx1, ?_, hn⟩
    rw [hm.src_opp hh] at hx2
    exact hx2
  · rintro ⟨hd, hv, hn⟩
    refine ⟨⟨m.opp d, (mem_ring hm ho _).mpr ⟨hm.opp_mem hd, ?_⟩, hm.opp_opp hd⟩, hn⟩
    rw [hm.src_opp hd, hm.src_opp hh, hv]

end TDP.Measures
