import Verif.Fill.Tri
/-! # Property C108: the vertex array and the index array of an object (src/spatial/himesh.cpp:285-325) -/
namespace TDP.Fill
open TDP.Boxes TDP.EndToEnd TDP.Codec

/-- `vertices_begin() … vertices_end()`: every vertex once (CGAL's manual). -/
structure VertEnum {P : Type} (m : Mesh P) (verts : List Nat) : Prop where
  nodup : verts.Nodup
  mem : ∀ v, v ∈ verts ↔ ∃ d ∈ m.darts, m.vert d = v

/-- `size_of_vertices()`: the room in the array (himesh.cpp:286-289) and the value returned. -/
def sizeOfVertices {P : Type} (m : Mesh P) : Nat := (m.darts.image m.vert).card

/-- `getId()` of the vertices of a decompressed object: `MyVertex` starts with `id(0)` (src/PPMC/mymesh.h:198-199) and `setId` is
called only by the writer of the base mesh (src/PPMC/mymeshIO.cpp:202, 222), which a decompressed object does not run. -/
def decodedId : Nat → Nat := fun _ => 0

theorem verts_card {P : Type} {m : Mesh P} {verts : List Nat} (hv : VertEnum m verts) : sizeOfVertices m = verts.length := by
  unfold sizeOfVertices
  have : m.darts.image m.vert = verts.toFinset := by
    ext x; rw [Finset.mem_image, List.mem_toFinset, hv.mem]
  rw [this, List.toFinset_card_of_nodup hv.nodup]

/-- Blocks of three. -/
theorem block3 {α β : Type} (f : α → List β) (hf : ∀ a, (f a).length = 3) : ∀ (l : List α) (k : Nat) (s : α), l[k]? = some s →
    ∀ j, j < 3 → (l.flatMap f)[3 * k + j]? = (f s)[j]? := by
  intro l
  induction l with
  | nil => intro k s h; simp at h
  | cons a l ih =>
    intro k s h j hj
    rw [List.flatMap_cons]
    cases k with
    | zero =>
      simp only [List.getElem?_cons_zero, Option.some.injEq] at h
      subst h
      rw [List.getElem?_append_left (by rw [hf]; omega)]
      congr 1; omega
    | succ k =>
      rw [List.getElem?_cons_succ] at h
      rw [List.getElem?_append_right (by rw [hf]; omega), ← ih k s h j hj, hf]
      congr 1
      omega

theorem len3 {α β : Type} (f : α → List β) (hf : ∀ a, (f a).length = 3) (l : List α) : (l.flatMap f).length = 3 * l.length := by
  induction l with
  | nil => rfl
  | cons a l ih => rw [List.flatMap_cons, List.length_append, ih, hf, List.length_cons]; omega

section
variable {m : Mesh (Pt ℚ)} {verts facets : List Nat} {id : Nat → Nat}

/-- C108, the vertices. `fill_vertices` writes three numbers for every vertex, as many as the array holds; every vertex has one
position, and there are its three coordinates, in order. -/
theorem C108_vertices (hv : VertEnum m verts) :
    (fillVertices m verts).length = 3 * sizeOfVertices m ∧
    (∀ d ∈ m.darts, ∃! k : Nat, verts[k]? = some (m.vert d) ∧ k < sizeOfVertices m) ∧
    (∀ (k v : Nat), verts[k]? = some v → ∀ i : Fin 3, (fillVertices m verts)[3 * k + i.val]? = some (m.pos v i)) := by
  refine ⟨by rw [verts_card hv]; exact len3 _ (fun _ => rfl) _, ?_, ?_⟩
  · intro d hd
    obtain ⟨k, hk, hke⟩ := List.mem_iff_getElem.1 ((hv.mem _).2 ⟨d, hd, rfl⟩)
    refine ⟨k, ⟨by rw [List.getElem?_eq_getElem hk, hke], by rw [verts_card hv]; exact hk⟩, ?_⟩
    rintro j ⟨hj, _⟩
    obtain ⟨hj1, hj2⟩ := List.getElem?_eq_some_iff.1 hj
    exact (List.Nodup.getElem_inj_iff hv.nodup).1 (hj2.trans hke.symm)
  · intro k v hk i
    unfold fillVertices
    rw [block3 _ (fun _ => rfl) _ k v hk i.val i.isLt]
    fin_cases i <;> rfl

/-- What is in the index array. -/
theorem topology_entry (k e : Nat) (hk : facets[k]? = some e) (j : Nat) (hj : j < 3) :
    (fillTopology m id facets)[3 * k + j]? = some (id (m.vert (m.next^[j] e)) % 2 ^ 16) := by
  unfold fillTopology
  rw [block3 _ (fun _ => rfl) _ k e hk j hj]
  interval_cases j <;> rfl

/-- C108, the indices (partial). If the vertices are numbered in the order of the vertex array and there are at most 65536 of
them, `fill_topology` writes three indices for every facet, as many as the array holds; index `j` of a facet is the position of
its corner `j`, so the three numbers there in the vertex array are its coordinates. If the facet is a triangle these are all its
corners. Missing: the vertices of a decompressed object have no numbers (`C108_decoded_indices_zero`), more than 65536 vertices
(`C108_indices_truncated`), facets with more corners. -/
theorem C108_indices_partial (hm : m.h.WF) (hv : VertEnum m verts) (hf : FacetEnum m facets)
    (hid : ∀ (p v : Nat), verts[p]? = some v → id v = p) (hn : sizeOfVertices m ≤ 65536) :
    (fillTopology m id facets).length = 3 * sizeOfFacets m ∧
    (∀ (k e : Nat), facets[k]? = some e → ∀ j, j < 3 → ∃ p, (fillTopology m id facets)[3 * k + j]? = some p ∧
      verts[p]? = some (m.vert (m.next^[j] e)) ∧
      ∀ i : Fin 3, (fillVertices m verts)[3 * p + i.val]? = some (m.pos (m.vert (m.next^[j] e)) i)) ∧
    (∀ (k e : Nat), facets[k]? = some e → m.next (m.next (m.next e)) = e → ∀ d ∈ m.darts, m.face d = m.face e →
      ∃ j, j < 3 ∧ d = m.next^[j] e) := by
  refine ⟨by rw [facets_card hf]; exact len3 _ (fun _ => rfl) _, ?_, ?_⟩
  · intro k e hk j hj
    have he := hf.mem e (List.mem_of_getElem? hk)
    have hmem : m.next^[j] e ∈ m.darts := by
      have : ∀ j : Nat, m.next^[j] e ∈ m.darts := by
        intro j
        induction j with
        | zero => exact he
        | succ j ih => rw [Function.iterate_succ_apply']; exact hm.next_mem _ ih
      exact this j
    obtain ⟨p, ⟨hp, hlt⟩, _⟩ := (C108_vertices hv).2.1 _ hmem
    refine ⟨p, ?_, hp, (C108_vertices hv).2.2 p _ hp⟩
    rw [topology_entry k e hk j hj, hid p _ hp, Nat.mod_eq_of_lt (by omega)]
  · intro k e hk h3 d hd hfe
    rcases (C66_triangles_partial Fp.exact hm hf).2.2.2 k e hk h3 d hd hfe with h | h | h
    · exact ⟨0, by omega, h⟩
    · exact ⟨1, by omega, h⟩
    · exact ⟨2, by omega, h⟩

/-- The index array of a decompressed object is zero everywhere, so for every facet whose first two corners differ one of its
indices names another vertex than the corner. -/
theorem C108_decoded_indices_zero :
    (∀ x ∈ fillTopology m decodedId facets, x = 0) ∧
    ∀ (k e : Nat), facets[k]? = some e → m.vert e ≠ m.vert (m.next e) →
      ∃ j p, j < 3 ∧ (fillTopology m decodedId facets)[3 * k + j]? = some p ∧ verts[p]? ≠ some (m.vert (m.next^[j] e)) := by
  constructor
  · intro x hx
    obtain ⟨d, _, h⟩ := List.mem_flatMap.1 hx
    simpa [decodedId] using h
  · intro k e hk hne
    by_cases h : verts[0]? = some (m.vert e)
    · exact ⟨1, 0, by omega, topology_entry k e hk 1 (by omega), fun h' => hne (Option.some.inj (h.symm.trans h'))⟩
    · exact ⟨0, 0, by omega, topology_entry k e hk 0 (by omega), h⟩

/-- Also with the right numbers, a corner whose position is 65536 or more is given the index of another vertex. -/
theorem C108_indices_truncated (hid : ∀ (p v : Nat), verts[p]? = some v → id v = p)
    (k e j q : Nat) (hk : facets[k]? = some e) (hj : j < 3) (hq : verts[q]? = some (m.vert (m.next^[j] e))) (hbig : 65536 ≤ q) :
    ∃ p, (fillTopology m id facets)[3 * k + j]? = some p ∧ p < 65536 ∧ verts[p]? ≠ some (m.vert (m.next^[j] e)) := by
  refine ⟨q % 2 ^ 16, by rw [topology_entry k e hk j hj, hid q _ hq], Nat.mod_lt _ (by norm_num), fun h => ?_⟩
  have h1 := hid _ _ h
  rw [hid _ _ hq] at h1
  have := Nat.mod_lt q (show 0 < 2 ^ 16 by norm_num)
  omega
end

/-- Non-vacuity: the pyramid, its vertices in another order than their names. -/
theorem ExPyr.vertEnum : VertEnum ExPyr.mesh [4, 0, 1, 2, 3] where
  nodup := by decide
  mem v := by
    constructor
    · intro h
      simp only [List.mem_cons, List.not_mem_nil, or_false] at h
      rcases h with rfl | rfl | rfl | rfl | rfl
      · exact ⟨5, by decide +kernel, by decide +kernel⟩
      · exact ⟨3, by decide +kernel, by decide +kernel⟩
      · exact ⟨0, by decide +kernel, by decide +kernel⟩
      · exact ⟨1, by decide +kernel, by decide +kernel⟩
      · exact ⟨2, by decide +kernel, by decide +kernel⟩
    · rintro ⟨d, hd, rfl⟩
      revert d
      decide +kernel

example : (fillVertices ExPyr.mesh [4, 0, 1, 2, 3]).take 6 = [1/2, 1/2, 1, 0, 0, 0] ∧
    fillTopology ExPyr.mesh (fun v => (v + 1) % 5) ExPyr.facets = [2, 3, 4, 1, 0, 2, 2, 0, 3, 3, 0, 4, 4, 0, 1] ∧
    (∀ (p v : Nat), [4, 0, 1, 2, 3][p]? = some v → (v + 1) % 5 = p) ∧ sizeOfVertices ExPyr.mesh ≤ 65536 := by
  refine ⟨by decide +kernel, by decide +kernel, ?_, by decide +kernel⟩
  intro p v h
  rcases p with _ | _ | _ | _ | _ | p <;> simp at h <;> omega

/-- Non-vacuity of the truncation: a facet with a corner at position 65540 (only the part of the mesh the theorem speaks of is
given: 70000 halfedges, each with its own vertex, in triangles). -/
example : let m : Mesh (Pt ℚ) := ⟨Finset.range 70000, fun d => if d % 3 = 2 then d - 2 else d + 1, fun d => d, fun d => d / 3,
      fun d => d, fun _ _ => 0, 70000, 23334, 70000⟩
    ∃ p, (fillTopology m (fun v => v) ((List.range 23333).map (3 * ·)))[3 * 21846 + 2]? = some p ∧ p < 65536 ∧
      (List.range 70000)[p]? ≠ some 65540 := by
  intro m
  have hc : m.vert (m.next^[2] 65538) = 65540 := by decide +kernel
  rw [← hc]
  refine C108_indices_truncated (m := m) (verts := List.range 70000) (id := fun v => v) (facets := (List.range 23333).map (3 * ·))
    ?_ 21846 65538 2 65540 ?_ (by omega) ?_ (by omega)
  · intro p v h
    rw [List.getElem?_range] at h
    · exact (Option.some.inj h).symm
    · by_contra hc
      rw [List.getElem?_eq_none (by simpa using hc)] at h
      cases h
  · rw [List.getElem?_map, List.getElem?_range (by norm_num)]; rfl
  · rw [hc, List.getElem?_range (by norm_num)]

end TDP.Fill
