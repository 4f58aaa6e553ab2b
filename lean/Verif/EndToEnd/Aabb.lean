import Verif.EndToEnd.Nearest
import Mathlib.Order.Bounds.Basic
/-!
# Distances with AABB trees (`--aabb`; `calculate_distance`, SpatialJoin.cpp:309-350)

The trees are CGAL's: `D segs p` is what `squared_distance` answers. They are cached in the mesh until they are cleared, across
levels of detail.
-/
namespace TDP.EndToEnd
open TDP.Boxes TDP.Join

/-- `HiMesh::aabb_tree` of the objects of the second tile (himesh.h:93): the segments it was built from, or `NULL`. -/
abbrev Trees := Int → Option (List Seg)

/-- `HiMesh::get_aabb_tree` (himesh.cpp:482-490): a tree that is there is reused; `cur` are the segments of the meshes as they are
now (`get_segments`, himesh.cpp:431-440). -/
def getTree (cur : Int → List Seg) (T : Trees) (i : Int) : List Seg × Trees :=
  match T i with
  | some t => (t, T)
  | none => (cur i, Function.update T i (some (cur i)))

/-- Building the trees of an entry (SpatialJoin.cpp:316-318). -/
def buildCands (cur : Int → List Seg) : Trees → List Cand → Trees
  | T, [] => T
  | T, c :: cs => buildCands cur (getTree cur T c.mesh.id).2 cs

/-- Building the trees (SpatialJoin.cpp:311-319); `nn` is `ctx.query_type=="nn"`. -/
def buildTrees (nn : Bool) (cur : Int → List Seg) : Trees → List Entry → Trees
  | T, [] => T
  | T, e :: es =>
      if nn && decide (e.cands.length ≤ 1) then buildTrees nn cur T es
      else buildTrees nn cur (buildCands cur T e.cands) es

/-- The loop over the vertices (SpatialJoin.cpp:332-342); state: `min_dist` (initially `DBL_MAX`) and the trees. -/
def vertexLoop (D : List Seg → Pt ℚ → ℚ) (cur : Int → List Seg) (i : Int) : WithTop ℚ × Trees → List (Pt ℚ) → WithTop ℚ × Trees
  | st, [] => st
  | (m, T), p :: ps =>
      let g := getTree cur T i
      vertexLoop D cur i (if m > (D g.1 p : WithTop ℚ) then (D g.1 p : WithTop ℚ) else m, g.2) ps

/-- The loop over the candidates of an entry (SpatialJoin.cpp:330-346): the distances written, and the trees; each tree is cleared
after use (himesh.cpp:474-480). -/
def candLoop (D : List Seg → Pt ℚ → ℚ) (cur : Int → List Seg) (vs : List (Pt ℚ)) : Trees → List Cand → List (WithTop ℚ) × Trees
  | T, [] => ([], T)
  | T, c :: cs =>
      let r := vertexLoop D cur c.mesh.id (⊤, T) vs
      let t := candLoop D cur vs (Function.update r.2 c.mesh.id none) cs
      (r.1 :: t.1, t.2)

/-- The loop over the entries (SpatialJoin.cpp:323-348): an entry with at most one candidate writes nothing. -/
def entryLoop (D : List Seg → Pt ℚ → ℚ) (cur : Int → List Seg) (verts : Wrapper → List (Pt ℚ)) : Trees → List Entry →
    List (WithTop ℚ) × Trees
  | T, [] => ([], T)
  | T, e :: es =>
      if e.cands.length ≤ 1 then entryLoop D cur verts T es
      else
        let r := candLoop D cur (verts e.mesh) T e.cands
        let t := entryLoop D cur verts r.2 es
        (r.1 ++ t.1, t.2)

/-- `calculate_distance` with AABB trees (SpatialJoin.cpp:299-350): the array, initially 0, and the trees. -/
def aabbCalc (nn : Bool) (D : List Seg → Pt ℚ → ℚ) (cur : Int → List Seg) (verts : Wrapper → List (Pt ℚ)) (T : Trees)
    (es : List Entry) : (Nat → WithTop ℚ) × Trees :=
  let r := entryLoop D cur verts (buildTrees nn cur T es) es
  (fun i => r.1.getD i 0, r.2)

/-- What a level shows: the vertices of the objects of the first tile, the edges of those of the second, the sizes of the voxels. -/
structure View where
  verts : Wrapper → List (Pt ℚ)
  edges : Int → List Seg
  size : Voxel → Nat

/-- One level of detail of `nearest_neighbor` with `--aabb` (SpatialJoin.cpp:546-650). -/
def aabbNN (D : List Seg → Pt ℚ → ℚ) (top : Bool) (V : View) (s : NNState × Trees) : NNState × Trees :=
  let r : Round := ⟨V.size, fun _ _ => 0⟩
  if (flatPairs s.1.opened).length = 0 then s
  else if segmentPairs r s.1.opened = 0 then s
  else
    let c := aabbCalc true D V.edges V.verts s.2 s.1.opened
    (nnStep top r (fun i => (c.1 i).untopD 0) s.1, c.2)

/-- `nearest_neighbor` after filtering; nothing has built a tree before. -/
def aabbNearest (D : List Seg → Pt ℚ → ℚ) (lods : List Nat) (views : Nat → View) (es : List Entry) : NNState × Trees :=
  lods.foldl (fun s lod => aabbNN D (lod == lods.getLastD 0) (views lod) s) (dropDecided ⟨es, [], 0⟩, fun _ => none)

/-- One level of detail of `within` with `--aabb` (SpatialJoin.cpp:432-514). -/
def aabbWithin (D : List Seg → Pt ℚ → ℚ) (top : Bool) (limit : ℚ) (V : View) (s : List Entry × Trees) : List Entry × Trees :=
  let r : Round := ⟨V.size, fun _ _ => 0⟩
  if (flatPairs s.1).length = 0 then s
  else if segmentPairs r s.1 = 0 then s
  else
    let c := aabbCalc false D V.edges V.verts s.2 s.1
    (wiStep top limit r (fun i => (c.1 i).untopD 0) s.1, c.2)

/-! ## Specification -/

/-- Specification: `d` is the smallest squared distance from one of the points to a point of one of the segments. -/
def VertexEdge (ps : List (Pt ℚ)) (ss : List Seg) (d : ℚ) : Prop :=
  IsLeast {x | ∃ p ∈ ps, ∃ s ∈ ss, ∃ t : ℚ, 0 ≤ t ∧ t ≤ 1 ∧ x = dist2 p (s.pt t)} d

/-- Contract of CGAL's tree: it answers the squared distance to the segments it was built from. -/
def Exact (D : List Seg → Pt ℚ → ℚ) : Prop := ∀ ss p, ss ≠ [] → VertexEdge [p] ss (D ss p)

/-- The candidates in the order of the distances. -/
def flatCands (es : List Entry) : List (Entry × Cand) := es.flatMap (fun e => e.cands.map (fun c => (e, c)))

/-! ## Proofs -/

section
variable {D : List Seg → Pt ℚ → ℚ} {cur : Int → List Seg}

/-- A tree is absent or up to date. -/
def Fresh (cur : Int → List Seg) (T : Trees) (i : Int) : Prop := T i = none ∨ T i = some (cur i)

theorem getTree_fresh {T : Trees} {i : Int} (h : Fresh cur T i) : (getTree cur T i).1 = cur i := by
  unfold getTree
  rcases h with h | h <;> rw [h]

theorem getTree_keep {T : Trees} {i : Int} (h : Fresh cur T i) : Fresh cur (getTree cur T i).2 i := by
  unfold getTree
  rcases h with h | h
  · rw [h]; exact Or.inr (Function.update_self ..)
  · rw [h]; exact Or.inr h

theorem getTree_other (T : Trees) (i j : Int) : j ≠ i → (getTree cur T i).2 j = T j := by
  intro hj
  unfold getTree
  cases h : T i with
  | none => simp [hj]
  | some t => rfl

theorem getTree_mono {T : Trees} {i j : Int} (h : Fresh cur T j) : Fresh cur (getTree cur T i).2 j := by
  by_cases hj : j = i
  · subst hj; exact getTree_keep h
  · unfold Fresh; rw [getTree_other T i j hj]; exact h

theorem vertexLoop_trees (i : Int) : ∀ (vs : List (Pt ℚ)) (m : WithTop ℚ) (T : Trees),
    (∀ j, Fresh cur T j → Fresh cur (vertexLoop D cur i (m, T) vs).2 j) ∧
    (∀ j, j ≠ i → (vertexLoop D cur i (m, T) vs).2 j = T j)
  | [], m, T => ⟨fun _ h => h, fun _ _ => rfl⟩
  | p :: ps, m, T => by
      simp only [vertexLoop]
      obtain ⟨a, b⟩ := vertexLoop_trees i ps (if m > (D (getTree cur T i).1 p : WithTop ℚ) then (D (getTree cur T i).1 p : WithTop ℚ) else m)
        (getTree cur T i).2
      exact ⟨fun j h => a j (getTree_mono h), fun j hj => (b j hj).trans (getTree_other T i j hj)⟩

theorem vertexEdge_cons {p : Pt ℚ} {ps : List (Pt ℚ)} {ss : List Seg} {a b : ℚ} (h1 : VertexEdge [p] ss a) (h2 : VertexEdge ps ss b) :
    VertexEdge (p :: ps) ss (min a b) := by
  obtain ⟨m1, l1⟩ := h1
  obtain ⟨m2, l2⟩ := h2
  constructor
  · rcases le_total a b with h | h
    · rw [min_eq_left h]
      obtain ⟨q, hq, x⟩ := m1
      rw [List.mem_singleton] at hq
      subst hq
      exact ⟨q, List.mem_cons_self .., x⟩
    · rw [min_eq_right h]
      obtain ⟨q, hq, x⟩ := m2
      exact ⟨q, List.mem_cons_of_mem _ hq, x⟩
  · rintro x ⟨q, hq, r⟩
    rcases List.mem_cons.1 hq with rfl | hq
    · exact le_trans (min_le_left _ _) (l1 ⟨q, List.mem_singleton.2 rfl, r⟩)
    · exact le_trans (min_le_right _ _) (l2 ⟨q, hq, r⟩)

theorem vertexLoop_val (hD : Exact D) (i : Int) (hne : cur i ≠ []) : ∀ (vs : List (Pt ℚ)) (m : WithTop ℚ) (T : Trees), Fresh cur T i →
    (vs = [] → (vertexLoop D cur i (m, T) vs).1 = m) ∧
    (vs ≠ [] → ∃ v : ℚ, VertexEdge vs (cur i) v ∧ (vertexLoop D cur i (m, T) vs).1 = min m v)
  | [], m, T, _ => ⟨fun _ => rfl, fun h => absurd rfl h⟩
  | p :: ps, m, T, hT => by
      refine ⟨by simp, fun _ => ?_⟩
      simp only [vertexLoop]
      rw [getTree_fresh hT]
      have e : (if m > (D (cur i) p : WithTop ℚ) then (D (cur i) p : WithTop ℚ) else m) = min m (D (cur i) p) := by
        by_cases h : m > (D (cur i) p : WithTop ℚ)
        · rw [if_pos h, min_eq_right (le_of_lt h)]
        · rw [if_neg h, min_eq_left (not_lt.1 h)]
      rw [e]
      obtain ⟨h1, h2⟩ := vertexLoop_val hD i hne ps (min m (D (cur i) p)) _ (getTree_keep hT)
      by_cases hps : ps = []
      · subst hps
        exact ⟨D (cur i) p, hD _ _ hne, h1 rfl⟩
      · obtain ⟨v, hv, e2⟩ := h2 hps
        exact ⟨min (D (cur i) p) v, vertexEdge_cons (hD _ _ hne) hv, by rw [e2, WithTop.coe_min, min_assoc]⟩

theorem candLoop_spec (hD : Exact D) {vs : List (Pt ℚ)} (hvs : vs ≠ []) : ∀ (cs : List Cand) (T : Trees),
    (∀ c ∈ cs, cur c.mesh.id ≠ []) → (∀ c ∈ cs, Fresh cur T c.mesh.id) →
    List.Forall₂ (fun (c : Cand) (d : WithTop ℚ) => ∃ v : ℚ, d = v ∧ VertexEdge vs (cur c.mesh.id) v) cs (candLoop D cur vs T cs).1 ∧
    (∀ j, Fresh cur T j → Fresh cur (candLoop D cur vs T cs).2 j) ∧
    (∀ j, (∀ c ∈ cs, c.mesh.id ≠ j) → (candLoop D cur vs T cs).2 j = T j) ∧
    (∀ c ∈ cs, (candLoop D cur vs T cs).2 c.mesh.id = none) ∧
    (∀ j, T j = none → (candLoop D cur vs T cs).2 j = none)
  | [], T, _, _ => ⟨.nil, fun _ h => h, fun _ _ => rfl, by simp, fun _ h => h⟩
  | c :: cs, T, hne, hT => by
      simp only [candLoop]
      obtain ⟨t1, t2⟩ := vertexLoop_trees (D := D) (cur := cur) c.mesh.id vs ⊤ T
      obtain ⟨_, v2⟩ := vertexLoop_val hD c.mesh.id (hne c (List.mem_cons_self ..)) vs ⊤ T (hT c (List.mem_cons_self ..))
      obtain ⟨r, hr⟩ : ∃ r, vertexLoop D cur c.mesh.id (⊤, T) vs = r := ⟨_, rfl⟩
      rw [hr] at t1 t2 v2 ⊢
      have hf : ∀ j, Fresh cur T j → Fresh cur (Function.update r.2 c.mesh.id none) j := by
        intro j hj
        by_cases e : j = c.mesh.id
        · subst e; exact Or.inl (Function.update_self ..)
        · unfold Fresh; rw [Function.update_of_ne e]; exact t1 j hj
      have hn : ∀ j, j ≠ c.mesh.id → Function.update r.2 c.mesh.id none j = T j := by
        intro j e
        rw [Function.update_of_ne e, t2 j e]
      obtain ⟨i1, i2, i3, i4, i5⟩ := candLoop_spec hD hvs cs (Function.update r.2 c.mesh.id none)
        (fun c hc => hne c (List.mem_cons_of_mem _ hc)) (fun c' hc' => hf _ (hT c' (List.mem_cons_of_mem _ hc')))
      refine ⟨.cons ?_ i1, fun j hj => i2 j (hf j hj), ?_, ?_, ?_⟩
      · obtain ⟨v, hv, e⟩ := v2 hvs
        exact ⟨v, by rw [e, min_eq_right le_top], hv⟩
      · intro j hj
        rw [i3 j (fun c hc => hj c (List.mem_cons_of_mem _ hc)), hn j (fun e => hj c (List.mem_cons_self ..) e.symm)]
      · intro c' hc'
        rcases List.mem_cons.1 hc' with rfl | hc'
        · exact i5 _ (Function.update_self ..)
        · exact i4 c' hc'
      · intro j hj
        by_cases e : j = c.mesh.id
        · subst e; exact i5 _ (Function.update_self ..)
        · exact i5 j ((hn j e).trans hj)

/-- The objects whose tree is used. -/
def Used (es : List Entry) (i : Int) : Prop := ∃ e ∈ es, 1 < e.cands.length ∧ ∃ c ∈ e.cands, c.mesh.id = i

theorem buildCands_fresh : ∀ (cs : List Cand) (T : Trees),
    (∀ j, Fresh cur T j → Fresh cur (buildCands cur T cs) j) ∧ (∀ j, (∀ c ∈ cs, c.mesh.id ≠ j) → buildCands cur T cs j = T j)
  | [], T => ⟨fun _ h => h, fun _ _ => rfl⟩
  | c :: cs, T => by
      obtain ⟨a, b⟩ := buildCands_fresh cs (getTree cur T c.mesh.id).2
      refine ⟨fun j h => a j (getTree_mono h), fun j hj => ?_⟩
      rw [buildCands, b j (fun c hc => hj c (List.mem_cons_of_mem _ hc))]
      exact getTree_other _ _ _ (fun e => hj c (List.mem_cons_self ..) e.symm)

theorem buildTrees_fresh (nn : Bool) : ∀ (es : List Entry) (T : Trees),
    (∀ j, Fresh cur T j → Fresh cur (buildTrees nn cur T es) j) ∧
    (∀ j, (∀ e ∈ es, (nn = true → 1 < e.cands.length) → ∀ c ∈ e.cands, c.mesh.id ≠ j) → buildTrees nn cur T es j = T j)
  | [], T => ⟨fun _ h => h, fun _ _ => rfl⟩
  | e :: es, T => by
      simp only [buildTrees]
      by_cases h : (nn && decide (e.cands.length ≤ 1)) = true
      · rw [if_pos h]
        obtain ⟨a, b⟩ := buildTrees_fresh nn es T
        exact ⟨a, fun j hj => b j (fun e he => hj e (List.mem_cons_of_mem _ he))⟩
      · rw [if_neg h]
        obtain ⟨a, b⟩ := buildTrees_fresh nn es (buildCands cur T e.cands)
        obtain ⟨c, d⟩ := buildCands_fresh (cur := cur) e.cands T
        refine ⟨fun j hj => a j (c j hj), fun j hj => ?_⟩
        rw [b j (fun e he => hj e (List.mem_cons_of_mem _ he))]
        refine d j (hj e (List.mem_cons_self ..) ?_)
        intro hn
        subst hn
        simpa using h

theorem entryLoop_spec (hD : Exact D) {verts : Wrapper → List (Pt ℚ)} : ∀ (es : List Entry) (T : Trees),
    (∀ e ∈ es, verts e.mesh ≠ [] ∧ ∀ c ∈ e.cands, cur c.mesh.id ≠ []) → (∀ i, Used es i → Fresh cur T i) →
    ((∀ e ∈ es, 1 < e.cands.length) →
      List.Forall₂ (fun (ec : Entry × Cand) (d : WithTop ℚ) => ∃ v : ℚ, d = v ∧ VertexEdge (verts ec.1.mesh) (cur ec.2.mesh.id) v)
        (flatCands es) (entryLoop D cur verts T es).1) ∧
    (∀ j, ¬ Used es j → (entryLoop D cur verts T es).2 j = T j) ∧
    (∀ j, Used es j → (entryLoop D cur verts T es).2 j = none) ∧
    (∀ j, T j = none → (entryLoop D cur verts T es).2 j = none)
  | [], T, _, _ => ⟨fun _ => .nil, fun _ _ => rfl, (by rintro j ⟨e, he, _⟩; simp at he), fun _ h => h⟩
  | e :: es, T, hne, hT => by
      have hne' : ∀ e ∈ es, verts e.mesh ≠ [] ∧ ∀ c ∈ e.cands, cur c.mesh.id ≠ [] := fun e he => hne e (List.mem_cons_of_mem _ he)
      have hus : ∀ i, Used es i → Used (e :: es) i := by
        rintro i ⟨x, hx, y⟩
        exact ⟨x, List.mem_cons_of_mem _ hx, y⟩
      simp only [entryLoop]
      by_cases hl : e.cands.length ≤ 1
      · rw [if_pos hl]
        obtain ⟨_, i2, i3, i4⟩ := entryLoop_spec hD es T hne' (fun i hi => hT i (hus i hi))
        have heq : ∀ i, Used (e :: es) i → Used es i := by
          rintro i ⟨x, hx, y, z⟩
          rcases List.mem_cons.1 hx with rfl | hx
          · omega
          · exact ⟨x, hx, y, z⟩
        refine ⟨fun h => absurd (h e (List.mem_cons_self ..)) (by omega), fun j hj => i2 j (fun h => hj (hus j h)),
          fun j hj => i3 j (heq j hj), i4⟩
      · rw [if_neg hl]
        simp only
        have hue : ∀ c ∈ e.cands, Used (e :: es) c.mesh.id := fun c hc => ⟨e, List.mem_cons_self .., by omega, c, hc, rfl⟩
        obtain ⟨c1, c2, c3, c4, c5⟩ := candLoop_spec hD (hne e (List.mem_cons_self ..)).1 e.cands T
          (hne e (List.mem_cons_self ..)).2 (fun c hc => hT _ (hue c hc))
        obtain ⟨r, hr⟩ : ∃ r, candLoop D cur (verts e.mesh) T e.cands = r := ⟨_, rfl⟩
        rw [hr] at c1 c2 c3 c4 c5 ⊢
        obtain ⟨i1, i2, i3, i4⟩ := entryLoop_spec hD es r.2 hne' (fun i hi => c2 i (hT i (hus i hi)))
        refine ⟨fun h => ?_, fun j hj => ?_, fun j hj => ?_, fun j hj => i4 j (c5 j hj)⟩
        · have h' := i1 (fun e he => h e (List.mem_cons_of_mem _ he))
          have h'' : List.Forall₂ (fun (ec : Entry × Cand) (d : WithTop ℚ) => ∃ v : ℚ, d = v ∧
              VertexEdge (verts ec.1.mesh) (cur ec.2.mesh.id) v) (e.cands.map (fun c => (e, c))) r.1 := by
            rw [List.forall₂_map_left_iff]; exact c1
          unfold flatCands at h' ⊢
          rw [List.flatMap_cons]
          exact List.rel_append h'' h'
        · rw [i2 j (fun h => hj (hus j h))]
          refine c3 j (fun c hc e' => hj ?_)
          subst e'; exact hue c hc
        · by_cases h : Used es j
          · exact i3 j h
          · obtain ⟨x, hx, y, c, hc, rfl⟩ := hj
            rcases List.mem_cons.1 hx with rfl | hx
            · exact i4 _ (c4 c hc)
            · exact absurd ⟨x, hx, y, c, hc, rfl⟩ h
end

/-- A batch in which every entry has at least two candidates. -/
theorem aabbCalc_spec {D : List Seg → Pt ℚ → ℚ} (hD : Exact D) (nn : Bool) (cur : Int → List Seg) (verts : Wrapper → List (Pt ℚ))
    (T : Trees) (es : List Entry) (hne : ∀ e ∈ es, verts e.mesh ≠ [] ∧ ∀ c ∈ e.cands, cur c.mesh.id ≠ [])
    (hT : ∀ i, Used es i → T i = none) :
    ((∀ e ∈ es, 1 < e.cands.length) → ∀ (k : Nat) (e : Entry) (c : Cand), (flatCands es)[k]? = some (e, c) →
      ∃ v : ℚ, (aabbCalc nn D cur verts T es).1 k = v ∧ VertexEdge (verts e.mesh) (cur c.mesh.id) v) ∧
    (∀ i, Used es i → (aabbCalc nn D cur verts T es).2 i = none) ∧
    (∀ i, T i = none → (nn = true ∨ (∀ e ∈ es, 1 < e.cands.length)) → (aabbCalc nn D cur verts T es).2 i = none) := by
  obtain ⟨b1, b2⟩ := buildTrees_fresh (cur := cur) nn es T
  obtain ⟨e1, e2, e3, e4⟩ := entryLoop_spec hD (cur := cur) (verts := verts) es (buildTrees nn cur T es) hne
    (fun i hi => b1 i (Or.inl (hT i hi)))
  refine ⟨fun h k e c hk => ?_, e3, fun i hi hn => ?_⟩
  · have h' := e1 h
    obtain ⟨hlt, hk'⟩ := List.getElem?_eq_some_iff.1 hk
    have hlen := h'.length_eq
    have := h'.get hlt (by rw [← hlen]; exact hlt)
    simp only [List.get_eq_getElem] at this
    rw [hk'] at this
    obtain ⟨v, hv, hv2⟩ := this
    refine ⟨v, ?_, hv2⟩
    unfold aabbCalc
    simp only
    rw [List.getD_eq_getElem?_getD, List.getElem?_eq_getElem (by rw [← hlen]; exact hlt), Option.getD_some, hv]
  · by_cases hu : Used es i
    · exact e3 i hu
    · refine e4 i ?_
      rw [b2 i, hi]
      intro e he hl c hc hci
      refine hu ⟨e, he, ?_, c, hc, hci⟩
      rcases hn with hn | hn
      · exact hl hn
      · exact hn e he

end TDP.EndToEnd
