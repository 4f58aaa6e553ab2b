import Verif.Codec.Model
import Mathlib.Data.Nat.Pairing
import Mathlib.Data.Finset.Lattice.Fold
/-!
# Model of the face lists of the base mesh and of the polyhedron builder
(src/PPMC/mymeshIO.cpp:226-245, 304-320, src/PPMC/mymeshBaseBuilder.h:33-55)

`CGAL::Polyhedron_incremental_builder_3` is modelled after its manual: `begin_facet`, one `add_vertex_to_facet` per
vertex, `end_facet` makes a halfedge from each vertex of the list to the next one, and the halfedge from `u` to `v` is
opposite to the one from `v` to `u`. The `j`-th halfedge of facet `f` (the one pointing to the `j`-th vertex of its list)
gets the number `Nat.pair f j`; which numbers are used does not matter.
-/
namespace TDP.Codec
open TDP.Traversal

variable {P : Type}

/-- The halfedges of the face lists. -/
def slots (faces : List (List Nat)) : List Nat :=
  (List.range faces.length).flatMap (fun f => (List.range (faces.getD f []).length).map (Nat.pair f))

/-- The vertex a halfedge points to. -/
def bvert (faces : List (List Nat)) (d : Nat) : Nat := (faces.getD d.unpair.1 []).getD d.unpair.2 0

/-- The next halfedge of the facet. -/
def bnext (faces : List (List Nat)) (d : Nat) : Nat :=
  Nat.pair d.unpair.1 (if d.unpair.2 + 1 = (faces.getD d.unpair.1 []).length then 0 else d.unpair.2 + 1)

/-- The previous halfedge of the facet. -/
def bprev (faces : List (List Nat)) (d : Nat) : Nat :=
  Nat.pair d.unpair.1 (if d.unpair.2 = 0 then (faces.getD d.unpair.1 []).length - 1 else d.unpair.2 - 1)

/-- The vertex a halfedge leaves. -/
def bsrc (faces : List (List Nat)) (d : Nat) : Nat := bvert faces (bprev faces d)

/-- The halfedge in the opposite direction. -/
def bopp? (faces : List (List Nat)) (d : Nat) : Option Nat :=
  (slots faces).find? (fun e => bvert faces e == bsrc faces d && bsrc faces e == bvert faces d)

/-- `MyMeshBaseBuilder` (mymeshBaseBuilder.h:33-55). The builder reports an error, `none`, if two halfedges go from the same
vertex to the same vertex or a vertex does not exist. A surface with borders, which the builder would accept, is also
`none`. -/
def buildMesh [Inhabited P] (faces : List (List Nat)) (pts : List P) : Option (Mesh P) :=
  if (slots faces).all (fun d => decide (bvert faces d < pts.length) && (bopp? faces d).isSome &&
      (slots faces).all (fun e => !(bvert faces e == bvert faces d && bsrc faces e == bsrc faces d) || e == d)) then
    some
      { darts := (slots faces).toFinset
        next := bnext faces
        opp := fun d => (bopp? faces d).getD d
        face := fun d => d.unpair.1
        vert := bvert faces
        pos := fun v => pts.getD v default
        nd := (slots faces).toFinset.sup id + 1
        nf := faces.length
        nv := pts.length }
  else none

/-- The face lists `writeBaseMesh` writes (mymeshIO.cpp:226-245): `gates` holds `facet_begin()` of every facet in iterator
order, `id v` is the number of vertex `v`. -/
def faceLists (m : Mesh P) (gates : List Nat) (id : Nat → Nat) : List (List Nat) :=
  gates.map (fun g => (around m.h g).map (fun d => id (m.vert d)))

end TDP.Codec
