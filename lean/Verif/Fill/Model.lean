import Verif.Codec.Model
import Verif.EndToEnd.Model
/-!
# What the kernels are given: `fill_segments`, `fill_triangles`, `fill_vertices`, `fill_topology`
(src/spatial/himesh.cpp:231-325)

The order in which CGAL enumerates edges, facets and vertices is a parameter.
-/
namespace TDP.Fill
open TDP.Boxes TDP.EndToEnd TDP.Codec

/-- `edges_begin() … edges_end()`: one halfedge of every edge, once (CGAL's manual). -/
structure EdgeEnum {P : Type} (m : Mesh P) (edges : List Nat) : Prop where
  nodup : edges.Nodup
  mem : ∀ d ∈ edges, d ∈ m.darts
  one : ∀ d ∈ m.darts, (d ∈ edges ∧ m.opp d ∉ edges) ∨ (d ∉ edges ∧ m.opp d ∈ edges)

/-- `facets_begin() … facets_end()` with `f->halfedge()`: one halfedge of every facet. -/
structure FacetEnum {P : Type} (m : Mesh P) (facets : List Nat) : Prop where
  nodup : (facets.map m.face).Nodup
  mem : ∀ d ∈ facets, d ∈ m.darts
  all : ∀ d ∈ m.darts, m.face d ∈ facets.map m.face

/-- The six floats of one edge (himesh.cpp:236-250): `z` of the second end is moved by 0.1 if the ends are equal. The sum is
rounded once in the model (the code: to double and to float). -/
def segOf (F : Fp) (m : Mesh (Pt ℚ)) (d : Nat) : Seg where
  p := m.pos (m.vert d)
  q := fun i => if i = 2 then
      F.rnd (m.pos (m.vert (m.opp d)) 2 + (1 / 10) * (if m.pos (m.vert d) = m.pos (m.vert (m.opp d)) then 1 else 0))
    else m.pos (m.vert (m.opp d)) i

/-- The segments of a mesh, in order. -/
def segments (F : Fp) (m : Mesh (Pt ℚ)) (edges : List Nat) : List Seg := edges.map (segOf F m)

/-- `HiMesh::fill_segments` (himesh.cpp:231-255): the floats written. -/
def fillSegments (F : Fp) (m : Mesh (Pt ℚ)) (edges : List Nat) : List ℚ := (segments F m edges).flatMap Seg.floats

/-- The nine floats of one facet (himesh.cpp:264-280): only its first three corners are looked at. -/
def triOf (F : Fp) (m : Mesh (Pt ℚ)) (d : Nat) : Tri where
  C := m.pos (m.vert d)
  P1 := fun i => F.rnd (m.pos (m.vert (m.next d)) i - m.pos (m.vert d) i)
  P2 := fun i => F.rnd (m.pos (m.vert (m.next (m.next d))) i - m.pos (m.vert d) i)

/-- The triangles of a mesh, in order. -/
def triangles (F : Fp) (m : Mesh (Pt ℚ)) (facets : List Nat) : List Tri := facets.map (triOf F m)

/-- `HiMesh::fill_triangles` (himesh.cpp:258-283). -/
def fillTriangles (F : Fp) (m : Mesh (Pt ℚ)) (facets : List Nat) : List ℚ := (triangles F m facets).flatMap Tri.floats

/-- `HiMesh::fill_vertices` (himesh.cpp:285-303); `verts` is the order of the vertices. -/
def fillVertices (m : Mesh (Pt ℚ)) (verts : List Nat) : List ℚ := verts.flatMap (fun v => [m.pos v 0, m.pos v 1, m.pos v 2])

/-- `HiMesh::fill_topology` (himesh.cpp:306-325): `id v` is `getId()`; `unsigned short`. -/
def fillTopology {P : Type} (m : Mesh P) (id : Nat → Nat) (facets : List Nat) : List Nat :=
  facets.flatMap (fun d => [id (m.vert d) % 2^16, id (m.vert (m.next d)) % 2^16, id (m.vert (m.next (m.next d))) % 2^16])

/-- `size_of_edges()` of CGAL: half the number of halfedges; the buffer has room for as many segments (himesh.cpp:354-356). -/
def sizeOfEdges {P : Type} (m : Mesh P) : Nat := m.darts.card / 2

/-- `size_of_facets()`. -/
def sizeOfFacets {P : Type} (m : Mesh P) : Nat := (m.darts.image m.face).card

end TDP.Fill
