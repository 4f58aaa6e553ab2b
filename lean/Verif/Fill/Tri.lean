import Verif.Fill.Props
import Verif.Codec.Check
import Mathlib.Tactic.IntervalCases
/-! # Property C66: the triangles of a decoded mesh -/
namespace TDP.Fill
open TDP.Boxes TDP.EndToEnd TDP.Codec TDP.Kernels

section
variable {m : Mesh (Pt ℚ)} {facets : List Nat}

theorem facets_card {P : Type} {m : Mesh P} {facets : List Nat} (hf : FacetEnum m facets) : sizeOfFacets m = facets.length := by
  unfold sizeOfFacets
  have : m.darts.image m.face = (facets.map m.face).toFinset := by
    ext x
    rw [Finset.mem_image, List.mem_toFinset]
    constructor
    · rintro ⟨d, hd, rfl⟩; exact hf.all d hd
    · intro hx
      obtain ⟨d, hd, rfl⟩ := List.mem_map.1 hx
      exact ⟨d, hf.mem d hd, rfl⟩
  rw [this, List.toFinset_card_of_nodup hf.nodup, List.length_map]

/-- C66 (partial). `fill_triangles` writes nine floats for every facet, as many as the buffer holds; for every facet there is one
position in the output, and what is there is a corner `e` of the facet and the (rounded) differences to the two corners that
follow it. If the facet is a triangle these are all its corners. Missing: facets with more corners (`C66_polygon_truncated`). -/
theorem C66_triangles_partial (F : Fp) (hm : m.h.WF) (hf : FacetEnum m facets) :
    (fillTriangles F m facets).length = 9 * sizeOfFacets m ∧
    (∀ d ∈ m.darts, ∃! k : Nat, ∃ e, facets[k]? = some e ∧ m.face e = m.face d) ∧
    (∀ (k e : Nat), facets[k]? = some e → ∀ i : Fin 3,
      (fillTriangles F m facets)[9 * k + i.val]? = some (m.pos (m.vert e) i) ∧
      (fillTriangles F m facets)[9 * k + 3 + i.val]? = some (F.rnd (m.pos (m.vert (m.next e)) i - m.pos (m.vert e) i)) ∧
      (fillTriangles F m facets)[9 * k + 6 + i.val]? = some (F.rnd (m.pos (m.vert (m.next (m.next e))) i - m.pos (m.vert e) i))) ∧
    (∀ (k e : Nat), facets[k]? = some e → m.next (m.next (m.next e)) = e → ∀ d ∈ m.darts, m.face d = m.face e →
      d = e ∨ d = m.next e ∨ d = m.next (m.next e)) := by
  have hblock : ∀ (l : List Tri) (k : Nat) (s : Tri), l[k]? = some s → ∀ j, j < 9 →
      (l.flatMap Tri.floats)[9 * k + j]? = s.floats[j]? := by
    intro l
    induction l with
    | nil => intro k s h; simp at h
    | cons a l ih =>
      intro k s h j hj
      rw [List.flatMap_cons]
      cases k with
      | zero =>
        simp only [List.getElem?_cons_zero, Option.some.injEq] at h
        subst h
        rw [List.getElem?_append_left (by show 9 * 0 + j < 9; omega)]
        congr 1; omega
      | succ k =>
        rw [List.getElem?_cons_succ] at h
        rw [List.getElem?_append_right (by show 9 ≤ _; omega)]
        rw [← ih k s h j hj]
        congr 1
        show 9 * (k + 1) + j - 9 = 9 * k + j
        omega
  refine ⟨?_, ?_, ?_, ?_⟩
  · rw [facets_card hf]
    unfold fillTriangles triangles
    rw [List.length_flatMap]
    have : (facets.map (triOf F m)).map (fun s => s.floats.length) = List.replicate facets.length 9 := by
      rw [List.map_map]
      exact List.eq_replicate_iff.2 ⟨by simp, by intro b hb; obtain ⟨d, _, rfl⟩ := List.mem_map.1 hb; rfl⟩
    rw [this, List.sum_replicate, smul_eq_mul, Nat.mul_comm]
  · intro d hd
    obtain ⟨k, hk, hke⟩ := List.mem_iff_getElem.1 (hf.all d hd)
    rw [List.length_map] at hk
    rw [List.getElem_map] at hke
    refine ⟨k, ⟨_, List.getElem?_eq_getElem hk, hke⟩, ?_⟩
    rintro j ⟨e, hj, hje⟩
    obtain ⟨hj1, hj2⟩ := List.getElem?_eq_some_iff.1 hj
    have h1 : (facets.map m.face)[j]'(by rw [List.length_map]; exact hj1) = (facets.map m.face)[k]'(by rw [List.length_map]; exact hk) := by
      rw [List.getElem_map, List.getElem_map, hj2, hje, hke]
    exact (List.Nodup.getElem_inj_iff hf.nodup).1 h1
  · intro k e hk i
    have hs : (triangles F m facets)[k]? = some (triOf F m e) := by
      unfold triangles; rw [List.getElem?_map, hk]; rfl
    have hb := hblock _ k _ hs
    refine ⟨?_, ?_, ?_⟩
    · unfold fillTriangles
      rw [hb i.val (by omega)]
      fin_cases i <;> rfl
    · unfold fillTriangles
      rw [show 9 * k + 3 + i.val = 9 * k + (3 + i.val) by omega, hb (3 + i.val) (by omega)]
      fin_cases i <;> rfl
    · unfold fillTriangles
      rw [show 9 * k + 6 + i.val = 9 * k + (6 + i.val) by omega, hb (6 + i.val) (by omega)]
      fin_cases i <;> rfl
  · intro k e hk h3 d hd hfe
    have he := hf.mem e (List.mem_of_getElem? hk)
    obtain ⟨i, hi⟩ := (hm.face_iff e he d hd).1 hfe.symm
    subst hi
    have key : ∀ i : Nat, m.next^[i] e = e ∨ m.next^[i] e = m.next e ∨ m.next^[i] e = m.next (m.next e) := by
      intro i
      induction i with
      | zero => exact Or.inl rfl
      | succ i ih =>
        rw [Function.iterate_succ_apply']
        rcases ih with h | h | h <;> rw [h]
        · exact Or.inr (Or.inl rfl)
        · exact Or.inr (Or.inr rfl)
        · exact Or.inl h3
    exact key i

end

/-- Enumerations of edges and facets exist. -/
theorem edgeEnum_exists {P : Type} {m : Mesh P} (hm : m.h.WF) : ∃ edges, EdgeEnum m edges := by
  refine ⟨(m.darts.filter (fun d => d < m.opp d)).toList, Finset.nodup_toList _, ?_, ?_⟩
  · intro d hd
    exact (Finset.mem_filter.1 (Finset.mem_toList.1 hd)).1
  · intro d hd
    have h1 := hm.opp_mem d hd
    have h2 : m.opp (m.opp d) = d := hm.opp_opp d hd
    have h3 : m.opp d ≠ d := hm.opp_ne d hd
    simp only [Finset.mem_toList, Finset.mem_filter, h2]
    rcases Nat.lt_or_gt_of_ne h3 with h | h
    · exact Or.inr ⟨fun x => absurd x.2 (by omega), h1, h⟩
    · exact Or.inl ⟨⟨hd, h⟩, fun x => absurd x.2 (by omega)⟩

theorem facetEnum_exists {P : Type} (m : Mesh P) : ∃ facets, FacetEnum m facets := by
  classical
  have key : ∀ x ∈ m.darts.image m.face, ∃ d ∈ m.darts, m.face d = x := fun x hx => Finset.mem_image.1 hx
  choose! f hf1 hf2 using key
  have hmap : ((m.darts.image m.face).toList.map f).map m.face = (m.darts.image m.face).toList := by
    rw [List.map_map]
    conv_rhs => rw [← List.map_id (m.darts.image m.face).toList]
    exact List.map_congr_left (fun x hx => hf2 x (Finset.mem_toList.1 hx))
  refine ⟨(m.darts.image m.face).toList.map f, ?_, ?_, ?_⟩
  · rw [hmap]; exact Finset.nodup_toList _
  · intro d hd
    obtain ⟨x, hx, rfl⟩ := List.mem_map.1 hd
    exact hf1 x (Finset.mem_toList.1 hx)
  · intro d hd
    rw [hmap]
    exact Finset.mem_toList.2 (Finset.mem_image_of_mem _ hd)

/-! ### A square pyramid -/
namespace ExPyr
/-- A point. -/
def pt (x y z : ℚ) : Pt ℚ := fun i => if i.val = 0 then x else if i.val = 1 then y else z
theorem pt0 (x y z : ℚ) : pt x y z 0 = x := rfl
theorem pt1 (x y z : ℚ) : pt x y z 1 = y := rfl
theorem pt2 (x y z : ℚ) : pt x y z 2 = z := rfl
/-- Corners. -/
def vpos (v : Nat) : Pt ℚ := if v = 0 then pt 0 0 0 else if v = 1 then pt 1 0 0 else if v = 2 then pt 1 1 0
  else if v = 3 then pt 0 1 0 else pt (1/2) (1/2) 1
/-- Halfedges 0-3: the base; `4+3k, 5+3k, 6+3k`: the triangle on base edge `k`. -/
def mesh : Mesh (Pt ℚ) where
  darts := Finset.range 16
  next d := if d < 4 then (d + 1) % 4 else if (d - 4) % 3 = 2 then d - 2 else d + 1
  opp d := if d < 4 then 4 + 3 * d else if (d - 4) % 3 = 0 then (d - 4) / 3
    else if (d - 4) % 3 = 1 then 6 + 3 * (((d - 4) / 3 + 3) % 4) else 5 + 3 * (((d - 4) / 3 + 1) % 4)
  face d := if d < 4 then 0 else 1 + (d - 4) / 3
  vert d := if d < 4 then (d + 1) % 4 else if (d - 4) % 3 = 0 then (d - 4) / 3 else if (d - 4) % 3 = 1 then 4 else ((d - 4) / 3 + 1) % 4
  pos := vpos
  nd := 16
  nf := 5
  nv := 5
def facets : List Nat := [0, 4, 7, 10, 13]
def edges : List Nat := [0, 1, 2, 3, 5, 8, 11, 14]

theorem ok : mesh.WF ∧ mesh.Sep ∧ 0 ∈ mesh.darts := Mesh.check_wf (k := 5) (h0 := 0) (ds := List.range 16) (by decide +kernel)
theorem facetEnum : FacetEnum mesh facets := ⟨by decide +kernel, by decide +kernel, by decide +kernel⟩
theorem edgeEnum : EdgeEnum mesh edges := ⟨by decide +kernel, by decide +kernel, by decide +kernel⟩
end ExPyr

/-- The points of a triangle as the kernel sees it. -/
def Covers (t : Tri) (x : Pt ℚ) : Prop := ∃ a b : ℚ, 0 ≤ a ∧ 0 ≤ b ∧ a + b ≤ 1 ∧ ∀ i, x i = t.C i + a * t.P1 i + b * t.P2 i

/-- Of a facet with four corners half is not given to the kernel: there are a closed mesh and a point of one of its facets (a
convex combination of its corners `d`, `next d`, `next (next (next d))`) that is in no triangle. -/
theorem C66_polygon_truncated : ∃ (m : Mesh (Pt ℚ)) (facets : List Nat), m.WF ∧ m.Sep ∧ FacetEnum m facets ∧
    ∃ d ∈ m.darts, ∀ t ∈ triangles Fp.exact m facets, ¬ Covers t (fun i => 1 / 2 * m.pos (m.vert d) i +
      1 / 4 * m.pos (m.vert (m.next d)) i + 1 / 4 * m.pos (m.vert (m.next (m.next (m.next d)))) i) := by
  refine ⟨ExPyr.mesh, ExPyr.facets, ExPyr.ok.1, ExPyr.ok.2.1, ExPyr.facetEnum, 3, by decide, ?_⟩
  intro t ht ⟨a, b, ha, hb, hab, h⟩
  have h0 := h 0
  have h1 := h 1
  have h2 := h 2
  simp only [triangles, ExPyr.facets, List.map_cons, List.map_nil, List.mem_cons, List.not_mem_nil, or_false] at ht
  rcases ht with rfl | rfl | rfl | rfl | rfl <;>
    · norm_num [triOf, ExPyr.mesh, ExPyr.vpos, ExPyr.pt0, ExPyr.pt1, ExPyr.pt2, Fp.exact] at h0 h1 h2
      linarith

/-- Non-vacuity of C65 and C66: the pyramid. -/
example : (fillSegments Fp.exact ExPyr.mesh ExPyr.edges).length = 48 ∧ (fillTriangles Fp.exact ExPyr.mesh ExPyr.facets).length = 45 := by
  obtain ⟨h1, _⟩ := C65_segments Fp.exact ExPyr.ok.1.h ExPyr.edgeEnum (fun _ _ => rfl)
  obtain ⟨h2, _⟩ := C66_triangles_partial Fp.exact ExPyr.ok.1.h ExPyr.facetEnum
  rw [h1, h2]
  decide +kernel

end TDP.Fill
