import Verif.Boxes.Model
/-!
# Model of voxel generation and filling (src/spatial/himesh.cpp:93-229, 340-423)

Coordinates are any linear order `α` with least and greatest element; a squared distance is a value in any
linear order `δ` with a greatest element, the initial `min_dist` (`DBL_MAX` in a `float` is infinity).
NaN is excluded. The skeleton (CGAL mean curvature flow) is a parameter.
-/
namespace TDP.Voxels
open TDP.Boxes

variable {α δ : Type} [LinearOrder δ] [OrderTop δ]

/-- `distance(Point, Point)` (spatial.h:60-66): the differences the other way round than in
`TDP.Boxes.ptDist` (geometry.h:105-111). -/
def pointDist (F : Fp) (p q : Pt ℚ) : ℚ :=
  [0, 1, 2].foldl (fun acc (t : Fin 3) => F.rnd (acc + F.rnd (F.rnd (q t - p t) * F.rnd (q t - p t)))) 0

/-- The loop `for(j<voxels.size()) if(cur_dist<min_dist)` (himesh.cpp:203-211, 391-399) from index `j`,
`gid` and `min_dist`; `none` is `gid = -1`. -/
def nearestLoop (dist : Pt α → Pt α → δ) (p : Pt α) : List (Pt α) → Nat → Option Nat → δ → Option Nat
  | [], _, gid, _ => gid
  | c :: cs, j, gid, m => if dist c p < m then nearestLoop dist p cs (j + 1) (some j) (dist c p)
                          else nearestLoop dist p cs (j + 1) gid m

/-- The index of the voxel chosen for a point. -/
def nearest (dist : Pt α → Pt α → δ) (cores : List (Pt α)) (p : Pt α) : Option Nat :=
  nearestLoop dist p cores 0 none ⊤

/-- `class Voxel` (himesh.h:49-71); `data[lod]` and `size[lod]` by level; elements (segments or triangles)
are an abstract type `E`. -/
structure Voxel (α E : Type) where
  core : Pt α
  box : Box α
  data : Nat → Option (List E)
  size : Nat → Option Nat

/-- `v->data[lod] = l; v->size[lod] = n`. -/
def Voxel.set {E : Type} (v : Voxel α E) (lod : Nat) (l : List E) (n : Nat) : Voxel α E :=
  { v with data := fun k => if k = lod then some l else v.data k,
           size := fun k => if k = lod then some n else v.size k }

/-- One turn of the copy loop (himesh.cpp:412-418): append to the buffer of the chosen voxel. `bufs` are the
buffers with their allocated number of elements; writing beyond is heap corruption, `none`. -/
def copyOne {E : Type} (bufs : List (Nat × List E)) (ge : Nat × E) : Option (List (Nat × List E)) :=
  match bufs[ge.1]? with
  | none => none
  | some b => if b.2.length < b.1 then some (bufs.set ge.1 (b.1, b.2 ++ [ge.2])) else none

/-- `HiMesh::fill_voxel` (himesh.cpp:342-423) with the elements of the mesh in order and the first point of
each. `gid = -1` would write before the array: `none`. -/
def fillVoxel {E : Type} (dist : Pt α → Pt α → δ) (first : E → Pt α) (lod : Nat) (elems : List E)
    (vs : List (Voxel α E)) : Option (List (Voxel α E)) :=
  match vs with
  | [] => none
  | v0 :: _ =>
    if (v0.data lod).isSome then some vs
    else if vs.length = 1 then some [v0.set lod elems elems.length]
    else do
      let groups ← elems.mapM (fun e => nearest dist (vs.map (·.core)) (first e))
      let alloc := (List.range vs.length).map (fun j => (groups.count j, ([] : List E)))
      let bufs ← (groups.zip elems).foldlM copyOne alloc
      some (vs.zipWith (fun v b => v.set lod b.2 b.2.length) bufs)

/-- `need_keep` and the loop over the cores (himesh.cpp:110-145). `draws` are the values of
`get_rand_number(num_cores)`, `1..num_cores`; `assigned` starts as `true`, so the two fallback loops never
run. A target beyond the array is `none`. -/
def pickLoop : Nat → List Bool → List Nat → Option (List Bool × List Nat)
  | 0, keep, draws => some (keep, draws)
  | tries + 1, keep, draws =>
      match draws with
      | [] => none
      | d :: draws =>
        match keep[d]? with
        | none => none
        | some true => pickLoop tries keep draws
        | some false => some (keep.set d true, draws)

/-- The loop `for(i<num_cores)`. -/
def pickAll : Nat → List Bool → List Nat → Option (List Bool)
  | 0, keep, _ => some keep
  | n + 1, keep, draws => do
      let (keep, draws) ← pickLoop 10 keep draws
      pickAll n keep draws

/-- `HiMesh::get_skeleton_points` (himesh.cpp:93-156) on the skeleton's points. An empty skeleton divides by
zero (line 105). -/
def sample (numCores : Nat) (draws : List Nat) (skel : List (Pt α)) : Option (List (Pt α)) :=
  if skel.length = 0 then none
  else if numCores > skel.length then some skel
  else (pickAll numCores (List.replicate skel.length false) draws).map
    (fun keep => ((skel.zip keep).filter (·.2)).map (·.1))

variable [LinearOrder α] [BoundedOrder α]

/-- A voxel under construction: core, box, number of vertices. -/
structure Gen (α : Type) where
  core : Pt α
  box : Box α
  size : Nat

/-- One vertex (himesh.cpp:202-213). -/
def addVertex (dist : Pt α → Pt α → δ) (vs : List (Gen α)) (p : Pt α) : Option (List (Gen α)) :=
  match nearest dist (vs.map (·.core)) p with
  | none => none
  | some g =>
    match vs[g]? with
    | none => none
    | some v => some (vs.set g ⟨v.core, v.box.addPt p, v.size + 1⟩)

/-- `computeBoundingBox` (mymesh.cpp:168-180). -/
def boundingBox (verts : List (Pt α)) : Box α := verts.foldl (fun b p => b.addPt p) emptyBox

/-- `HiMesh::generate_voxels` (himesh.cpp:163-229) given the sampled skeleton points and, for the voxels that
never get one, the arbitrary initial content of `core`. -/
def generate (dist : Pt α → Pt α → δ) (junk : Pt α) (voxelSize : Nat) (skel : List (Pt α)) (verts : List (Pt α)) :
    Option (List (Gen α)) :=
  if verts.length < voxelSize then some [⟨junk, boundingBox verts, verts.length⟩]
  else
    match skel with
    | [] => some [⟨junk, boundingBox verts, verts.length⟩]
    | [c] => some [⟨c, boundingBox verts, verts.length⟩]
    | _ => (verts.foldlM (addVertex dist) (skel.map (fun c => ⟨c, emptyBox, 0⟩))).map
        (fun vs => vs.filter (fun v => !(v.size == 0)))

end TDP.Voxels
