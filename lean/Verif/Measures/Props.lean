import Verif.Measures.Basic
/-!
# C92: measures of facets

`loopSum f p` (Basic.lean) is the sum of `f a b` over the sides `a b` of the polygon `p`, `norm` the length of a vector,
`facePos m h` the positions of the corners of the facet of `h`, `Side p a b` says that `a` and `b` are consecutive corners.
-/
namespace TDP.Measures
open TDP.Codec TDP.Traversal

/-- The polygon moved by `t`. -/
def moved (t : R3) (p : List R3) : List R3 := p.map (fun q => q + t)

/-- The polygon scaled by `k`. -/
def scaled (k : ℝ) (p : List R3) : List R3 := p.map (fun q => k • q)

/-- All corners are in the plane through `o` that is perpendicular to `u`. -/
def InPlane (u o : R3) (p : List R3) : Prop := ∀ q ∈ p, dot u (q - o) = 0

/-- The mean of the corners. -/
noncomputable def mean (p : List R3) : R3 := (p.length : ℝ)⁻¹ • p.sum

/-- Every triangle from the mean of the corners over a side turns in the same direction, seen along `u`. -/
def Star (u : R3) (p : List R3) : Prop := ∀ a b, Side p a b → 0 ≤ dot u (cross (a - mean p) (b - mean p))

/-- Twice the area vector of a polygon. -/
noncomputable def area2 (p : List R3) : R3 := loopSum cross p

/-! ### Lemmas -/

theorem area2_shift (o : R3) (p : List R3) : loopSum (fun a b => cross (a - o) (b - o)) p = area2 p := by
  have e : ∀ a b : R3, cross (a - o) (b - o) = cross a b + (-cross a o + cross b o) := by
    intro a b
    apply ext3 <;> simp only [cross0, cross1, cross2, Pi.add_apply, Pi.sub_apply, Pi.neg_apply] <;> ring
  rw [loopSum_congr (g := fun a b => cross a b + (-cross a o + cross b o)) (fun a b _ => e a b), loopSum_add, loopSum_add,
    loopSum_neg, loopSum_fst (fun a => cross a o), loopSum_snd (fun b => cross b o), neg_add_cancel, add_zero]
  rfl

theorem area2_moved (t : R3) (p : List R3) : area2 (moved t p) = area2 p := by
  unfold moved
  rw [area2, loopSum_map, ← area2_shift (-t) p]
  exact loopSum_congr (fun a b _ => by rw [sub_neg_eq_add, sub_neg_eq_add])

theorem area2_scaled (k : ℝ) (p : List R3) : area2 (scaled k p) = (k * k) • area2 p := by
  unfold scaled
  rw [area2, loopSum_map, area2, smul_loopSum]
  refine loopSum_congr (fun a b _ => ?_)
  apply ext3 <;> simp only [cross0, cross1, cross2, Pi.smul_apply, smul_eq_mul] <;> ring

theorem area2_reverse (p : List R3) : area2 p.reverse = -area2 p := by
  rw [area2, loopSum_reverse, area2, ← loopSum_neg]
  refine loopSum_congr (fun a b _ => ?_)
  apply ext3 <;> simp only [cross0, cross1, cross2, Pi.neg_apply] <;> ring

theorem polygonNormal_eq (p : List R3) : polygonNormal p = normalize (area2 p) := by
  unfold polygonNormal; rw [normalSum_loop]; rfl

theorem cross_plane {u a b : R3} (ha : dot u a = 0) (hb : dot u b = 0) : dot u u • cross a b = dot u (cross a b) • u := by
  unfold dot at ha hb
  apply ext3 <;> simp only [dot, cross0, cross1, cross2, Pi.smul_apply, smul_eq_mul]
  · linear_combination (-(u 1 * a 2 - u 2 * a 1)) * hb + (u 1 * b 2 - u 2 * b 1) * ha
  · linear_combination (-(u 2 * a 0 - u 0 * a 2)) * hb + (u 2 * b 0 - u 0 * b 2) * ha
  · linear_combination (-(u 0 * a 1 - u 1 * a 0)) * hb + (u 0 * b 1 - u 1 * b 0) * ha

theorem area2_plane {u o : R3} {p : List R3} (hp : InPlane u o p) : dot u u • area2 p = dot u (area2 p) • u := by
  rw [← area2_shift o p, smul_loopSum, dot_loopSum, ← loopSum_smul]
  exact loopSum_congr (fun a b h => cross_plane (hp a h.left) (hp b h.right))

theorem mean_eq_sum (p : List R3) : (p.length : ℝ) • mean p = p.sum := by
  by_cases h : p.length = 0
  · rw [List.length_eq_zero_iff.mp h]; simp
  · unfold mean; rw [smul_smul, mul_inv_cancel₀ (by exact_mod_cast h), one_smul]

theorem sum_smul_right (k : ℝ) (l : List R3) : (l.map (fun q => k • q)).sum = k • l.sum := by
  induction l with
  | nil => simp
  | cons a l ih => rw [List.map_cons, List.sum_cons, ih, List.sum_cons, smul_add]

theorem sum_getD (p : List R3) : ∑ i ∈ Finset.range p.length, p.getD i 0 = p.sum := by
  have := loopSum_fst (fun a : R3 => a) p
  rw [List.map_id'] at this
  exact this

theorem polygonBarycenter_eq (p : List R3) : polygonBarycenter p = mean p := by
  unfold polygonBarycenter
  rw [foldl_sum, zero_add, range_sum]
  have : ∀ i, (fun c => p.getD i 0 c / (p.length : ℝ)) = (p.length : ℝ)⁻¹ • p.getD i 0 := by
    intro i; funext c; simp only [Pi.smul_apply, smul_eq_mul]; rw [div_eq_inv_mul]
  simp only [this]
  rw [← Finset.smul_sum, sum_getD]
  rfl

theorem gateSum_eq (m : Mesh R3) (h : Nat) : gateSum m h = ((facePos m h).sum, (facePos m h).length) := by
  have : ∀ (l : List Nat) (s : R3 × Nat), l.foldl (fun s hit => (s.1 + m.pos (m.vert hit), s.2 + 1)) s =
      (s.1 + (l.map (fun d => m.pos (m.vert d))).sum, s.2 + (l.map (fun d => m.pos (m.vert d))).length) := by
    intro l
    induction l with
    | nil => intro s; simp
    | cons a l ih =>
      intro s
      rw [List.foldl_cons, ih, List.map_cons, List.sum_cons, List.length_cons]
      simp only [Prod.mk.injEq]
      exact ⟨by rw [add_assoc], by omega⟩
  unfold gateSum
  rw [this]
  simp only [zero_add]
  rfl

theorem gateBarycenter_eq (m : Mesh R3) (h : Nat) : gateBarycenter m h = mean (facePos m h) := by
  unfold gateBarycenter
  rw [gateSum_eq]
  funext c
  simp only [mean, Pi.smul_apply, smul_eq_mul]
  rw [div_eq_inv_mul]

theorem facetBarycenter_eq (m : Mesh R3) (h : Nat) : facetBarycenter m h = mean (facePos m h) := by
  unfold facetBarycenter
  rw [foldl_sum, zero_add]
  have hd : (m.deg h : ℝ) = ((facePos m h).length : ℝ) := by unfold Mesh.deg facePos; rw [List.length_map]
  have : (fun hit => fun c => m.pos (m.vert hit) c / (m.deg h : ℝ)) =
      (fun q : R3 => ((facePos m h).length : ℝ)⁻¹ • q) ∘ (fun hit => m.pos (m.vert hit)) := by
    funext hit c; simp only [Function.comp, Pi.smul_apply, smul_eq_mul]; rw [hd, div_eq_inv_mul]
  rw [this, ← List.map_map, sum_smul_right]
  rfl

theorem mean_rotated {p q : List R3} (h : p ~r q) : mean p = mean q := by
  unfold mean; rw [h.perm.sum_eq, h.perm.length_eq]

theorem dot_sum (u : R3) (l : List R3) : dot u l.sum = (l.map (dot u)).sum := by
  induction l with
  | nil => simp [dot]
  | cons a l ih => rw [List.sum_cons, dot_add_right, ih, List.map_cons, List.sum_cons]

theorem sum_le_mul (l : List ℝ) (k : ℝ) (h : ∀ x ∈ l, x ≤ k) : l.sum ≤ l.length * k := by
  induction l with
  | nil => simp
  | cons a l ih =>
    rw [List.sum_cons, List.length_cons]
    push_cast
    have := ih (fun x hx => h x (List.mem_cons_of_mem _ hx))
    have := h a List.mem_cons_self
    nlinarith

theorem mean_halfspace {p : List R3} (hp : p ≠ []) {u : R3} {k : ℝ} (h : ∀ q ∈ p, dot u q ≤ k) : dot u (mean p) ≤ k := by
  have hl : (0 : ℝ) < p.length := by exact_mod_cast List.length_pos_of_ne_nil hp
  have h1 := sum_le_mul (p.map (dot u)) k (by
    intro x hx
    obtain ⟨q, hq, rfl⟩ := List.mem_map.mp hx
    exact h q hq)
  rw [← dot_sum, List.length_map, ← mean_eq_sum, dot_smul_right] at h1
  exact le_of_mul_le_mul_left h1 hl

theorem mean_inPlane {p : List R3} (hp : p ≠ []) {u o : R3} (h : InPlane u o p) : dot u (mean p - o) = 0 := by
  have a := mean_halfspace (p := p) hp (u := u) (k := dot u o) (fun q hq => by
    have := h q hq; rw [dot_sub_right] at this; linarith)
  have b := mean_halfspace (p := p) hp (u := -u) (k := dot (-u) o) (fun q hq => by
    have := h q hq
    rw [dot_sub_right] at this
    rw [dot_comm (-u), dot_comm (-u), dot_neg_right, dot_neg_right, dot_comm q, dot_comm o]
    linarith)
  rw [dot_comm (-u), dot_comm (-u), dot_neg_right, dot_neg_right, dot_comm _ u, dot_comm o] at b
  rw [dot_sub_right]
  linarith

theorem mean_moved {p : List R3} (hp : p ≠ []) (t : R3) : mean (moved t p) = mean p + t := by
  have hl : (p.length : ℝ) ≠ 0 := by exact_mod_cast (List.length_pos_of_ne_nil hp).ne'
  have : ∀ l : List R3, (l.map (fun q => q + t)).sum = l.sum + (l.length : ℝ) • t := by
    intro l
    induction l with
    | nil => simp
    | cons a l ih =>
      rw [List.map_cons, List.sum_cons, ih, List.sum_cons, List.length_cons]
      push_cast
      rw [add_smul, one_smul]
      abel
  unfold mean moved
  rw [this, List.length_map, smul_add, smul_smul, inv_mul_cancel₀ hl, one_smul]

theorem mean_scaled (k : ℝ) (p : List R3) : mean (scaled k p) = k • mean p := by
  unfold mean scaled
  rw [sum_smul_right, List.length_map, smul_comm]

/-! ### Normals -/

/-- **C92 (normals agree).** The three ways of computing the normal of a facet (from the facet, from one of its halfedges, from
the list of its vertices) give the same vector, the direction of its area vector, from wherever around the facet they start. It is
zero when the area vector is, and of length 1 otherwise. -/
theorem C92_facet_normals (m : Mesh R3) (hm : m.WF) (h g : Nat) (hh : h ∈ m.darts) (hg : g ∈ m.darts) (hf : m.face h = m.face g) :
    gateNormal m h = facetNormal m h ∧ polygonNormal (facePos m h) = facetNormal m h ∧ facetNormal m g = facetNormal m h ∧
    norm (area2 (facePos m h)) • facetNormal m h = area2 (facePos m h) ∧
    (area2 (facePos m h) = 0 → facetNormal m h = 0) ∧ (area2 (facePos m h) ≠ 0 → norm (facetNormal m h) = 1) := by
  have key : ∀ x ∈ m.darts, facetNormal m x = normalize (area2 (facePos m x)) := by
    intro x hx
    unfold facetNormal area2
    rw [foldl_sum, zero_add, around_sum cross hm hx]
  have e : area2 (facePos m g) = area2 (facePos m h) := (loopSum_rotated cross (facePos_rotated hm hh hg hf)).symm
  refine ⟨?_, ?_, ?_, ?_, fun hz => ?_, fun hz => ?_⟩
  · rw [key h hh]; exact polygonNormal_eq _
  · rw [key h hh]; exact polygonNormal_eq _
  · rw [key h hh, key g hg, e]
  · rw [key h hh, smul_normalize]
  · rw [key h hh, hz, normalize_zero]
  · rw [key h hh]
    rcases normalize_unit (area2 (facePos m h)) with ⟨h0, _⟩ | ⟨_, h1⟩
    · exact absurd h0 hz
    · unfold norm; rw [h1, Real.sqrt_one]

/-- **C92 (normal of a plane polygon).** The normal of a polygon in a plane is perpendicular to that plane; its side is that of
the area vector, which tells the direction of circulation. -/
theorem C92_normal_of_plane (u o : R3) (hu : u ≠ 0) (p : List R3) (hp : InPlane u o p) :
    (0 < dot u (area2 p) → polygonNormal p = normalize u) ∧ (dot u (area2 p) < 0 → polygonNormal p = -normalize u) ∧
    (dot u (area2 p) = 0 → polygonNormal p = 0) := by
  have hu2 : 0 < dot u u := lt_of_le_of_ne (dot_nonneg u) (fun e => hu (dot_zero e.symm))
  have e : area2 p = (dot u (area2 p) / dot u u) • u := by
    have := area2_plane hp
    rw [div_eq_inv_mul, ← smul_smul, ← this, smul_smul, inv_mul_cancel₀ hu2.ne', one_smul]
  refine ⟨fun h => ?_, fun h => ?_, fun h => ?_⟩
  · rw [polygonNormal_eq, e, normalize_smul_pos (div_pos h hu2)]
  · have : area2 p = (-(dot u (area2 p)) / dot u u) • (-u) := by
      rw [smul_neg, neg_div, neg_smul, neg_neg]; exact e
    rw [polygonNormal_eq, this, normalize_smul_pos (div_pos (by linarith) hu2), normalize_neg]
  · rw [polygonNormal_eq, e, h, zero_div, zero_smul, normalize_zero]

/-- **C92 (normals and moves).** Moving or scaling a polygon keeps its normal, going around it the other way turns it. -/
theorem C92_normal_moves (p : List R3) (t : R3) (k : ℝ) (hk : 0 < k) :
    polygonNormal (moved t p) = polygonNormal p ∧ polygonNormal (scaled k p) = polygonNormal p ∧
    polygonNormal p.reverse = -polygonNormal p ∧ ∀ i, polygonNormal (p.rotate i) = polygonNormal p := by
  refine ⟨?_, ?_, ?_, fun i => ?_⟩
  · rw [polygonNormal_eq, polygonNormal_eq, area2_moved]
  · rw [polygonNormal_eq, polygonNormal_eq, area2_scaled, normalize_smul_pos (mul_pos hk hk)]
  · rw [polygonNormal_eq, polygonNormal_eq, area2_reverse, normalize_neg]
  · rw [polygonNormal_eq, polygonNormal_eq]; unfold area2; rw [loopSum_rotate]

/-- The area vector of a triangle. -/
theorem area2_triangle (a b c : R3) : area2 [a, b, c] = cross (b - a) (c - a) := by
  rw [← area2_shift a]
  unfold loopSum
  simp only [List.length_cons, List.length_nil]
  rw [Finset.sum_range_succ, Finset.sum_range_succ, Finset.sum_range_succ, Finset.sum_range_zero, zero_add]
  apply ext3 <;> simp [cross0, cross1, cross2]

/-- **C92 (normal of a triangle).** The normal computed from three points is that of the polygon with these corners; it is
perpendicular to the three sides. -/
theorem C92_triangle_normal (a b c : R3) :
    triangleNormal a b c = polygonNormal [a, b, c] ∧ dot (triangleNormal a b c) (b - a) = 0 ∧
    dot (triangleNormal a b c) (c - b) = 0 ∧ dot (triangleNormal a b c) (a - c) = 0 := by
  have e : cross (b - a) (c - b) = cross (b - a) (c - a) := by
    apply ext3 <;> simp only [cross0, cross1, cross2, Pi.sub_apply] <;> ring
  have h : ∀ w, dot (cross (b - a) (c - b)) w = 0 → dot (triangleNormal a b c) w = 0 := by
    intro w hw
    unfold triangleNormal
    rw [normalize_eq]
    by_cases hz : cross (b - a) (c - b) = 0
    · rw [if_pos hz]; simp [dot]
    · rw [if_neg hz, dot_smul_left, hw, mul_zero]
  refine ⟨?_, h _ ?_, h _ ?_, h _ ?_⟩
  · unfold triangleNormal; rw [polygonNormal_eq, area2_triangle, e]
  · simp only [dot, cross0, cross1, cross2, Pi.sub_apply]; ring
  · simp only [dot, cross0, cross1, cross2, Pi.sub_apply]; ring
  · simp only [dot, cross0, cross1, cross2, Pi.sub_apply]; ring

/-- **C92 (vertex normals).** The normal at a vertex is the direction of the sum of the normals of the facets around it, once
each, from whichever of its halfedges the computation starts. -/
theorem C92_vertex_normal (m : Mesh R3) (hm : m.WF) (h : Nat) (hh : h ∈ m.darts) :
    vertexNormal m h = normalize (∑ d ∈ m.darts.filter (fun d => m.src d = m.vert h), facetNormal m d) ∧
    ∀ g ∈ m.darts, m.vert g = m.vert h → vertexNormal m g = vertexNormal m h := by
  have key : ∀ g ∈ m.darts, vertexNormal m g = normalize (∑ d ∈ m.darts.filter (fun d => m.src d = m.vert g), facetNormal m d) := by
    intro g hg
    have ho := hm.opp_mem hg
    have hs : m.src (m.opp g) = m.vert g := hm.src_opp hg
    unfold vertexNormal
    rw [foldl_sum, zero_add]
    congr 1
    have e : m.darts.filter (fun d => m.src d = m.vert g) = (m.ring (m.opp g)).toFinset := by
      ext d
      rw [Finset.mem_filter, List.mem_toFinset, mem_ring hm ho, hs]
    rw [e, List.sum_toFinset _ (ring_nodup hm ho)]
    congr 1
    refine List.map_congr_left (fun d hd => ?_)
    have hd' := ((mem_ring hm ho d).mp hd).1
    exact (C92_facet_normals m hm d d hd' hd' rfl).1
  exact ⟨key h hh, fun g hg hv => by rw [key g hg, key h hh, hv]⟩

end TDP.Measures
