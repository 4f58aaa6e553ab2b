import Verif.Codec.Convex
import Verif.Codec.Model
import Mathlib.Analysis.SpecialFunctions.Pow.Real
/-!
# Model of the normals, barycentres, lengths and surfaces of facets
(src/PPMC/mymeshUtils.cpp:23-152, 193-268, src/PPMC/mymeshCompTests.cpp:113-184)

Positions and results are real numbers; the code computes in `float` (mymesh.h:68), whose rounding is not modelled. The
polyhedron is the one of `Codec/Model.lean`.
-/
namespace TDP.Measures
open TDP.Codec TDP.Traversal

/-- A point or a vector. -/
abbrev R3 := Fin 3 → ℝ

/-- `f_sqLen == 0 ? NULL_VECTOR : n / sqrt(f_sqLen)` (mymeshUtils.cpp:35-36, 67-68, 76-77, 89-90). -/
noncomputable def normalize (n : R3) : R3 :=
  if dot n n = 0 then 0 else fun c => n c / Real.sqrt (dot n n)

/-- `computeNormal(Facet)` (mymeshUtils.cpp:23-37); `h` is `f->facet_begin()`. -/
noncomputable def facetNormal (m : Mesh R3) (h : Nat) : R3 :=
  normalize ((around m.h h).foldl (fun n hit => n + cross (m.pos (m.vert hit)) (m.pos (m.vert (m.next hit)))) 0)

/-- `computeNormal(polygon)` (mymeshUtils.cpp:57-69): the sum is `normalSum` of Codec/Convex.lean. -/
noncomputable def polygonNormal (p : List R3) : R3 := normalize (normalSum p)

/-- `computeNormal(Halfedge)` (mymeshUtils.cpp:40-54). -/
noncomputable def gateNormal (m : Mesh R3) (h : Nat) : R3 :=
  polygonNormal ((around m.h h).map (fun d => m.pos (m.vert d)))

/-- `computeNormal(Point p[3])` (mymeshUtils.cpp:73-78). -/
noncomputable def triangleNormal (p0 p1 p2 : R3) : R3 := normalize (cross (p1 - p0) (p2 - p1))

/-- `computeVertexNormal` (mymeshUtils.cpp:81-91): `hit->opposite()` for `hit` around the vertex of `h`. -/
noncomputable def vertexNormal (m : Mesh R3) (h : Nat) : R3 :=
  normalize ((m.ring (m.opp h)).foldl (fun n hit => n + gateNormal m hit) 0)

/-- `barycenter(Facet)` (mymeshUtils.cpp:94-106); `h` is `f->facet_begin()`. -/
noncomputable def facetBarycenter (m : Mesh R3) (h : Nat) : R3 :=
  (around m.h h).foldl (fun b hit => b + fun c => m.pos (m.vert hit) c / (m.deg h : ℝ)) 0

/-- The loop of `barycenter(Halfedge)` (mymeshUtils.cpp:112-121): the sum and the count. -/
noncomputable def gateSum (m : Mesh R3) (h : Nat) : R3 × Nat :=
  (around m.h h).foldl (fun s hit => (s.1 + m.pos (m.vert hit), s.2 + 1)) (0, 0)

/-- `barycenter(Halfedge)` (mymeshUtils.cpp:109-124). -/
noncomputable def gateBarycenter (m : Mesh R3) (h : Nat) : R3 := fun c => (gateSum m h).1 c / ((gateSum m h).2 : ℝ)

/-- `barycenter(polygon)` (mymeshUtils.cpp:127-134). -/
noncomputable def polygonBarycenter (p : List R3) : R3 :=
  (List.range p.length).foldl (fun b i => b + fun c => p.getD i 0 c / (p.length : ℝ)) 0

/-- `vertexDegreeNotNew` (mymeshUtils.cpp:140-152); `isNew` is the flag of the halfedges, `hit0` is `vh->halfedge()`. -/
def vertexDegreeNotNew (m : Mesh R3) (isNew : Nat → Bool) (hit0 : Nat) : Nat :=
  ((m.ring (m.opp hit0)).map m.opp).foldl (fun k hit => if !isNew hit then k + 1 else k) 0

/-- `sqrt((p - q).squared_length())`. -/
noncomputable def len (p q : R3) : ℝ := Real.sqrt (dot (p - q) (p - q))

/-- `triangleSurface` (mymeshUtils.cpp:196-206). -/
noncomputable def triangleSurface (p0 p1 p2 : R3) : ℝ :=
  let a := len p0 p1
  let b := len p1 p2
  let c := len p2 p0
  let s := (a + b + c) / 2
  let sq := s * (s - a) * (s - b) * (s - c)
  if sq ≤ 0 then 0 else Real.sqrt sq

/-- `edgeLen` (mymeshUtils.cpp:211-215). -/
noncomputable def edgeLen (m : Mesh R3) (h : Nat) : ℝ := len (m.pos (m.vert h)) (m.pos (m.vert (m.opp h)))

/-- `facePerimeter` (mymeshUtils.cpp:221-230); `h` is `fh->facet_begin()`. -/
noncomputable def facePerimeter (m : Mesh R3) (h : Nat) : ℝ := (around m.h h).foldl (fun s hit => s + edgeLen m hit) 0

/-- The loop of `faceSurface` over the stored positions (mymeshUtils.cpp:253-262). -/
noncomputable def fanSurface (b : R3) (p : List R3) : ℝ :=
  (List.range p.length).foldl (fun s i => s + triangleSurface b (p.getD i 0) (p.getD ((i + 1) % p.length) 0)) 0

/-- `faceSurface` (mymeshUtils.cpp:236-268). -/
noncomputable def faceSurface (m : Mesh R3) (h : Nat) : ℝ :=
  fanSurface (gateBarycenter m h) ((around m.h h).map (fun d => m.pos (m.vert d)))

open Classical in
/-- `isPlanar` (mymeshCompTests.cpp:116-135). -/
noncomputable def isPlanar (p : List R3) (epsilon : ℝ) : Bool :=
  let b := polygonBarycenter p
  let size := ((List.range p.length).foldl (fun s i => s + dot (b - p.getD i 0) (b - p.getD i 0)) 0) / (p.length : ℝ)
  let n := polygonNormal p
  (List.range p.length).all fun i => ¬ (dot n (p.getD i 0 - b) * dot n (p.getD i 0 - b) > epsilon * size)

/-- `f_perimeter` of `removalError` (mymeshCompTests.cpp:149-152). -/
noncomputable def ringLength (p : List R3) : ℝ :=
  (List.range p.length).foldl (fun s i => s + len (p.getD ((i + 1) % p.length) 0) (p.getD i 0)) 0

/-- `f_area` of `removalError` (mymeshCompTests.cpp:155-163). -/
noncomputable def ringArea (p : List R3) : ℝ :=
  (List.range p.length).foldl
    (fun s i => s + triangleSurface (p.getD i 0) (p.getD ((i + 1) % p.length) 0) (polygonBarycenter p)) 0

/-- `f_volume` of `removalError` (mymeshCompTests.cpp:168-179). `1 / 3.0 * area * vector` is a vector, the last product the
scalar product. -/
noncomputable def ringVolume (p : List R3) : ℝ :=
  (List.range p.length).foldl
    (fun s i =>
      let q := p.getD ((i + 1) % p.length) 0
      s + dot (fun c => 1 / 3 * triangleSurface (p.getD i 0) q (polygonBarycenter p) * p.getD i 0 c)
        (triangleNormal (p.getD i 0) q (polygonBarycenter p)))
    (dot (fun c => 1 / 3 * ringArea p * polygonBarycenter p c) (-polygonNormal p))

/-- `removalError(v, polygon)` (mymeshCompTests.cpp:142-184), `v` by its position. -/
noncomputable def removalError (_v : R3) (p : List R3) : ℝ :=
  if ringVolume p > 0 then (ringVolume p) ^ ((1 : ℝ) / 3) * (p.length : ℝ) / ringLength p else 0

end TDP.Measures
