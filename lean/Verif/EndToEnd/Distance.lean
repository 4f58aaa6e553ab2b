import Verif.EndToEnd.Intersect
/-!
# Property C63: the distances computed for a batch
-/
namespace TDP.EndToEnd
open TDP.Boxes TDP.Join TDP.Kernels TDP.Gpu

/-- Specification: the point at parameter `t` of a segment. -/
def Seg.pt (s : Seg) (t : ℚ) : Pt ℚ := fun i => s.p i + t * (s.q i - s.p i)

/-- Specification: `v` is the squared distance of a point of `s` and a point of `t`. -/
def Attained (v : ℚ) (s t : Seg) : Prop := ∃ x y, 0 ≤ x ∧ x ≤ 1 ∧ 0 ≤ y ∧ y ≤ 1 ∧ v = dist2 (s.pt x) (t.pt y)

theorem vdot_ne_zero {s : Seg} (h : s.p ≠ s.q) : vdot (vsub s.q s.p) (vsub s.q s.p) ≠ 0 := by
  intro hz
  apply h
  simp only [vdot, vsub, pt3_0, pt3_1, pt3_2] at hz
  have h0 := mul_self_nonneg (s.q 0 - s.p 0)
  have h1 := mul_self_nonneg (s.q 1 - s.p 1)
  have h2 := mul_self_nonneg (s.q 2 - s.p 2)
  have e0 : s.q 0 - s.p 0 = 0 := mul_self_eq_zero.1 (by linarith)
  have e1 : s.q 1 - s.p 1 = 0 := mul_self_eq_zero.1 (by linarith)
  have e2 : s.q 2 - s.p 2 = 0 := mul_self_eq_zero.1 (by linarith)
  exact pt_ext (by linarith) (by linarith) (by linarith)

theorem dist2At_eq (s t : Seg) (x y : ℚ) : dist2At s.p t.p (vsub s.q s.p) (vsub t.q t.p) x y = dist2 (s.pt x) (t.pt y) := by
  simp only [dist2At, dist2, vsub, Seg.pt, pt3_0, pt3_1, pt3_2]

/-- The kernel never underestimates. -/
theorem segD_attained {s t : Seg} (hs : s.p ≠ s.q) (ht : t.p ≠ t.q) : ∃ v : ℚ, segD s t = v ∧ Attained v s t := by
  obtain ⟨x, y, a, b, c, d, e⟩ := C36_attained_partial s.p t.p (vsub s.q s.p) (vsub t.q t.p) (vdot_ne_zero hs) (vdot_ne_zero ht)
  exact ⟨_, e, x, y, a, b, c, d, dist2At_eq s t x y⟩

/-- The distance of two slices in terms of the segments of the two voxels. -/
theorem pairDist_packed (heap : Voxel → List Seg) (vs : List Voxel) (hfits : Fits 6 heap vs) (ps : List VPair)
    (hvs : ∀ p ∈ ps, p.v1 ∈ vs ∧ p.v2 ∈ vs) (m' : VMap) (hm' : m'.Perm (voxelMap (fun v => (heap v).length) ps).1)
    (junk : Nat → ℚ) (b : Nat) (p : VPair) (hp : ps[b]? = some p) :
    let data := fun i => (fillBuf 6 (fun v => (heap v).flatMap Seg.floats) m' i).getD (junk i)
    let os := osArr (voxelMap (fun v => (heap v).length) ps).1 ps
    os (4 * b + 1) = (heap p.v1).length ∧ os (4 * b + 3) = (heap p.v2).length ∧
    os (4 * b) + os (4 * b + 1) ≤ (voxelMap (fun v => (heap v).length) ps).2 ∧
    os (4 * b + 2) + os (4 * b + 3) ≤ (voxelMap (fun v => (heap v).length) ps).2 ∧
    ∀ i (hi : i < (heap p.v1).length) j (hj : j < (heap p.v2).length),
      pairDist data os b i j = segD (heap p.v1)[i] (heap p.v2)[j] := by
  have hmem : p ∈ ps := List.mem_of_getElem? hp
  obtain ⟨s1, s2, n1, n2, o1, o2, t1, t2⟩ := packed Seg.floats 6 (by omega) (fun _ => rfl) heap vs hfits ps hvs m' hm' p hmem
  obtain ⟨a0, a1, a2, a3⟩ := osArr_get (voxelMap (fun v => (heap v).length) ps).1 ps b p hp
  intro data os
  refine ⟨by rw [← n1]; exact a1, by rw [← n2]; exact a3, ?_, ?_, ?_⟩
  · show osArr _ _ _ + osArr _ _ _ ≤ _
    rw [a0, a1]; exact t1
  · show osArr _ _ _ + osArr _ _ _ ≤ _
    rw [a2, a3]; exact t2
  · intro i hi j hj
    obtain ⟨x1, x2⟩ := seg_read _ junk _ _ _ n1 o1 s1 i hi
    obtain ⟨y1, y2⟩ := seg_read _ junk _ _ _ n2 o2 s2 j hj
    unfold pairDist segPair segD
    simp only [data, os]
    rw [a0, a2, x1, x2, y1, y2]

/-- C63. Without a GPU, for every number of threads and every schedule: the distance for a pair of voxels with at most 10000
segments each, none of them a point, is the smallest of the kernel's answers for a segment of the one and a segment of the
other, and the squared distance of two points of two such segments. -/
theorem C63_distance_cpu {threads : Nat} (ht : 1 ≤ threads) {heap : Voxel → List Seg} {es : List Entry} {d : Nat → WithTop ℚ}
    (h : Calc (.cpu threads) heap es d) (vs : List Voxel) (hfits : Fits 6 heap vs)
    (hvs : ∀ p ∈ flatPairs es, p.v1 ∈ vs ∧ p.v2 ∈ vs) (k : Nat) (p : VPair) (hp : (flatPairs es)[k]? = some p)
    (hne1 : heap p.v1 ≠ []) (hne2 : heap p.v2 ≠ []) (h1 : (heap p.v1).length ≤ 10000) (h2 : (heap p.v2).length ≤ 10000)
    (hnd : ∀ s ∈ heap p.v1 ++ heap p.v2, s.p ≠ s.q) :
    ∃ v : ℚ, d k = v ∧ (∀ s ∈ heap p.v1, ∀ t ∈ heap p.v2, (v : WithTop ℚ) ≤ segD s t) ∧
      ∃ s ∈ heap p.v1, ∃ t ∈ heap p.v2, segD s t = v ∧ Attained v s t := by
  obtain ⟨m', junk, hm', ws, hws, rfl⟩ := h
  have hk := (List.getElem?_eq_some_iff.1 hp).1
  rw [(C34_distance_all_schedules _ _ threads ht ws hws (fun _ => 0)).1 k hk]
  obtain ⟨e1, e2, _, _, hd⟩ := pairDist_packed heap vs hfits (flatPairs es) hvs m' hm' junk k p hp
  obtain ⟨c1, c2, _⟩ := C37_minimum
    (fun i => (fillBuf 6 (fun v => (heap v).flatMap Seg.floats) m' (osArr (voxelMap (fun v => (heap v).length) (flatPairs es)).1 (flatPairs es) (4 * k) * 6 + i)).getD (junk (osArr (voxelMap (fun v => (heap v).length) (flatPairs es)).1 (flatPairs es) (4 * k) * 6 + i)))
    (fun i => (fillBuf 6 (fun v => (heap v).flatMap Seg.floats) m' (osArr (voxelMap (fun v => (heap v).length) (flatPairs es)).1 (flatPairs es) (4 * k + 2) * 6 + i)).getD (junk (osArr (voxelMap (fun v => (heap v).length) (flatPairs es)).1 (flatPairs es) (4 * k + 2) * 6 + i)))
    (heap p.v1).length (heap p.v2).length h1 h2
  have hc : ∀ x : WithTop ℚ, x = cpuDist (fun i => (fillBuf 6 (fun v => (heap v).flatMap Seg.floats) m' i).getD (junk i))
      (osArr (voxelMap (fun v => (heap v).length) (flatPairs es)).1 (flatPairs es)) k →
      (∀ s ∈ heap p.v1, ∀ t ∈ heap p.v2, x ≤ segD s t) ∧ (x = ⊤ ∨ ∃ s ∈ heap p.v1, ∃ t ∈ heap p.v2, x = segD s t) := by
    intro x hx
    unfold cpuDist at hx
    rw [e1, e2] at hx
    rw [← hx] at c1 c2
    constructor
    · intro s hs t ht
      obtain ⟨i, hi, rfl⟩ := List.mem_iff_getElem.1 hs
      obtain ⟨j, hj, rfl⟩ := List.mem_iff_getElem.1 ht
      rw [← hd i hi j hj]
      exact c1 i hi j hj
    · rcases c2 with c2 | ⟨i, hi, j, hj, c2⟩
      · exact Or.inl c2
      · exact Or.inr ⟨_, List.getElem_mem hi, _, List.getElem_mem hj, by rw [← hd i hi j hj]; exact c2⟩
  obtain ⟨g1, g2⟩ := hc _ rfl
  have hfin : ∃ s ∈ heap p.v1, ∃ t ∈ heap p.v2, cpuDist (fun i => (fillBuf 6 (fun v => (heap v).flatMap Seg.floats) m' i).getD (junk i))
      (osArr (voxelMap (fun v => (heap v).length) (flatPairs es)).1 (flatPairs es)) k = segD s t := by
    rcases g2 with g2 | g2
    · obtain ⟨s, hs⟩ := List.exists_mem_of_ne_nil _ hne1
      obtain ⟨t, ht⟩ := List.exists_mem_of_ne_nil _ hne2
      refine ⟨s, hs, t, ht, le_antisymm (g1 s hs t ht) ?_⟩
      rw [g2]; exact le_top
    · exact g2
  obtain ⟨s, hs, t, ht, he⟩ := hfin
  obtain ⟨v, hv, ha⟩ := segD_attained (hnd s (List.mem_append_left _ hs)) (hnd t (List.mem_append_right _ ht))
  refine ⟨v, he.trans hv, ?_, s, hs, t, ht, hv, ha⟩
  intro s' hs' t' ht'
  rw [← hv, ← he]
  exact g1 s' hs' t' ht'

/-- C63 (partial). If moreover the nearest point of each first line to each second line lies on the first segment (see
`C36_exact_partial`), the distance is the smallest squared distance of points of the two sets of segments. -/
theorem C63_distance_exact_partial {threads : Nat} (ht : 1 ≤ threads) {heap : Voxel → List Seg} {es : List Entry}
    {d : Nat → WithTop ℚ} (h : Calc (.cpu threads) heap es d) (vs : List Voxel) (hfits : Fits 6 heap vs)
    (hvs : ∀ p ∈ flatPairs es, p.v1 ∈ vs ∧ p.v2 ∈ vs) (k : Nat) (p : VPair) (hp : (flatPairs es)[k]? = some p)
    (hne1 : heap p.v1 ≠ []) (hne2 : heap p.v2 ≠ []) (h1 : (heap p.v1).length ≤ 10000) (h2 : (heap p.v2).length ≤ 10000)
    (hnd : ∀ s ∈ heap p.v1 ++ heap p.v2, s.p ≠ s.q)
    (hline : ∀ s ∈ heap p.v1, ∀ t ∈ heap p.v2, 0 ≤ lineT s.p t.p (vsub s.q s.p) (vsub t.q t.p) ∧
      lineT s.p t.p (vsub s.q s.p) (vsub t.q t.p) ≤ 1) :
    ∃ v : ℚ, d k = v ∧ (∃ s ∈ heap p.v1, ∃ t ∈ heap p.v2, Attained v s t) ∧
      ∀ s ∈ heap p.v1, ∀ t ∈ heap p.v2, ∀ x y, 0 ≤ x → x ≤ 1 → 0 ≤ y → y ≤ 1 → v ≤ dist2 (s.pt x) (t.pt y) := by
  obtain ⟨v, e, hle, s, hs, t, ht', _, ha⟩ := C63_distance_cpu ht h vs hfits hvs k p hp hne1 hne2 h1 h2 hnd
  refine ⟨v, e, ⟨s, hs, t, ht', ha⟩, ?_⟩
  intro s hs t ht x y x0 x1 y0 y1
  obtain ⟨m, hm, _, hmin⟩ := C36_exact_partial s.p t.p (vsub s.q s.p) (vsub t.q t.p)
    (vdot_ne_zero (hnd s (List.mem_append_left _ hs))) (vdot_ne_zero (hnd t (List.mem_append_right _ ht)))
    (hline s hs t ht).1 (hline s hs t ht).2
  have h3 := hle s hs t ht
  unfold segD at h3
  rw [hm, WithTop.coe_le_coe] at h3
  have h4 := hmin x y x0 x1 y0 y1
  rw [dist2At_eq] at h4
  exact le_trans h3 h4

/-- C63 (partial). On a GPU, for every schedule: the distance is one of the kernel's answers, and the squared distance of two
points of two segments. Missing: that it is the smallest (`C58_lost_minimum`). -/
theorem C63_distance_gpu_partial {heap : Voxel → List Seg} {es : List Entry} {d : Nat → WithTop ℚ}
    (h : Calc .gpu heap es d) (vs : List Voxel) (hfits : Fits 6 heap vs)
    (hvs : ∀ p ∈ flatPairs es, p.v1 ∈ vs ∧ p.v2 ∈ vs) (k : Nat) (p : VPair) (hp : (flatPairs es)[k]? = some p)
    (hne1 : heap p.v1 ≠ []) (hne2 : heap p.v2 ≠ []) (hnd : ∀ s ∈ heap p.v1 ++ heap p.v2, s.p ≠ s.q) :
    ∃ v : ℚ, d k = v ∧ ∃ s ∈ heap p.v1, ∃ t ∈ heap p.v2, segD s t = v ∧ Attained v s t := by
  obtain ⟨m', junk, hm', vec0, dist0, hb⟩ := h
  have hk := (List.getElem?_eq_some_iff.1 hp).1
  have hin : InData (osArr (voxelMap (fun v => (heap v).length) (flatPairs es)).1 (flatPairs es)) (flatPairs es).length
      (voxelMap (fun v => (heap v).length) (flatPairs es)).2 := by
    intro b hb
    obtain ⟨_, _, g1, g2, _⟩ := pairDist_packed heap vs hfits (flatPairs es) hvs m' hm' junk b _ (List.getElem?_eq_getElem hb)
    exact ⟨g1, g2⟩
  obtain ⟨e1, e2, _, _, hd⟩ := pairDist_packed heap vs hfits (flatPairs es) hvs m' hm' junk k p hp
  obtain ⟨⟨i, hi, j, hj, e⟩, _⟩ := C58_bounds_partial hin hb k hk
    (by rw [e1]; exact List.length_pos_iff.2 hne1) (by rw [e2]; exact List.length_pos_iff.2 hne2)
  rw [e1] at hi
  rw [e2] at hj
  rw [hd i hi j hj] at e
  obtain ⟨v, hv, ha⟩ := segD_attained (hnd _ (List.mem_append_left _ (List.getElem_mem hi)))
    (hnd _ (List.mem_append_right _ (List.getElem_mem hj)))
  exact ⟨v, e.trans hv, _, List.getElem_mem hi, _, List.getElem_mem hj, hv, ha⟩

end TDP.EndToEnd
