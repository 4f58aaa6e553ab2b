import Verif.Join.Packing
import Verif.Join.Rounds2
import Verif.Gpu.Inter
import Verif.Gpu.Dist
import Verif.Voxels.Lemmas
import Verif.Octree.Model
/-!
# The joins from the decoded objects to the undecided objects (src/join/SpatialJoin.cpp, src/storage/tile.cpp)

Composition of the models of the octree, of filtering, filling, packing, the threads and kernels and the update of the candidate
lists. Levels of detail are natural numbers. The mesh of an object at a level is a parameter (its decoding is the
subject of C57).
-/
namespace TDP.EndToEnd
open TDP.Boxes TDP.Join TDP.Kernels TDP.Gpu

/-- A triangle as `fill_triangles` stores it (himesh.cpp:258-285): corner and two edge vectors. -/
structure Tri where
  C : Pt ℚ
  P1 : Pt ℚ
  P2 : Pt ℚ

/-- A segment as `fill_segments` stores it (himesh.cpp:231-255): two end points. -/
structure Seg where
  p : Pt ℚ
  q : Pt ℚ

/-- The nine floats of a triangle. -/
def Tri.floats (t : Tri) : List ℚ := [t.C 0, t.C 1, t.C 2, t.P1 0, t.P1 1, t.P1 2, t.P2 0, t.P2 1, t.P2 2]
/-- The six floats of a segment. -/
def Seg.floats (s : Seg) : List ℚ := [s.p 0, s.p 1, s.p 2, s.q 0, s.q 1, s.q 2]

/-- `HiMesh_Wrapper` with its mesh (himesh.h:144-186): `ptr` is the address of its `box`, `cores` are the cores of its voxels,
`elems lod` what `fill_triangles` (or `fill_segments`) gives at level `lod`. -/
structure Object (E : Type) where
  ptr : Nat
  w : Wrapper
  cores : List (Pt ℚ)
  elems : Nat → List E

/-- Its `weighted_aab` (himesh.h:151; the size is 1, aab.h:200). -/
def Object.obj {E : Type} (o : Object E) : Octree.Obj ℚ := ⟨o.ptr, o.w.id, o.w.box, 1⟩

/-- `heap lod v` is what voxel `v` holds at level `lod` once the object is filled at this level (`decode_to` and `fill_voxels`,
SpatialJoin.cpp:450-459, 566-575, 702-709): the voxels have not been filled at this level before. -/
def Filled {E : Type} (dist : Pt ℚ → Pt ℚ → WithTop ℚ) (first : E → Pt ℚ) (heap : Nat → Voxel → List E) (lod : Nat)
    (o : Object E) : Prop :=
  ∃ vs ws : List (Voxels.Voxel ℚ E), vs.map (·.core) = o.cores ∧ vs.length = o.w.voxels.length ∧
    (∀ v ∈ vs, v.data lod = none) ∧
    Voxels.fillVoxel dist first lod (o.elems lod) vs = some ws ∧
    ws.map (fun v => v.data lod) = o.w.voxels.map (fun v => some (heap lod v))

/-- Where `get_intersect` and `get_distance` compute (geometry_computer.cpp:149-157, 197-206). -/
inductive Cfg
  | cpu (threads : Nat)
  | gpu
deriving DecidableEq

/-- `offset_size` as an array (SpatialJoin.cpp:386-398, 741-757). -/
def osArr (m : VMap) (ps : List VPair) (i : Nat) : Nat :=
  match ps[i / 4]? with
  | none => 0
  | some p =>
    let q := offsetSize m p
    if i % 4 = 0 then q.1 else if i % 4 = 1 then q.2.1 else if i % 4 = 2 then q.2.2.1 else q.2.2.2

/-- The threads started for a batch of triangle tests: their writes to the result. -/
def intersectUnits (cfg : Cfg) (data : Nat → ℚ) (os : Nat → Nat) (pairs : Nat) : List (List (Nat × Nat)) :=
  match cfg with
  | .cpu threads => intUnits (fun b => if cpuInt data os b then 1 else 0) pairs threads
  | .gpu => triUnits data os pairs

/-- One level of detail of `intersect` (SpatialJoin.cpp:686-792), at which voxel `v` holds `heap v`. The map is walked in some
order `m'`; `junk` is the content of uninitialised memory; `ws` is what the memory sees of the threads. -/
inductive IntersectRound (cfg : Cfg) (heap : Voxel → List Tri) : List Entry → List Entry → Prop
  | idle (es) : (flatPairs es).length = 0 → IntersectRound cfg heap es es
  | run (es) (m' : VMap) (junk : Nat → ℚ) (ws : List (Nat × Nat)) : (flatPairs es).length ≠ 0 →
      m'.Perm (voxelMap (fun v => (heap v).length) (flatPairs es)).1 →
      Interleaving (intersectUnits cfg
        (fun i => (fillBuf 9 (fun v => (heap v).flatMap Tri.floats) m' i).getD (junk i))
        (osArr (voxelMap (fun v => (heap v).length) (flatPairs es)).1 (flatPairs es)) (flatPairs es).length) ws →
      IntersectRound cfg heap es (dropHit (markEntries (fun i => decide (runWrites (fun _ => 0) ws i ≠ 0)) 0 es))

/-- All levels, in order. -/
inductive IntersectRounds (cfg : Cfg) (heap : Nat → Voxel → List Tri) : List Nat → List Entry → List Entry → Prop
  | nil (es) : IntersectRounds cfg heap [] es es
  | cons {lod lods es es' es''} : IntersectRound cfg (heap lod) es es' → IntersectRounds cfg heap lods es' es'' →
      IntersectRounds cfg heap (lod :: lods) es es''

/-- `mbb_intersect` (SpatialJoin.cpp:123-169): an object for which the index finds nothing gets no entry. -/
inductive Filter {E : Type} (tree : Octree.Node ℚ) (tile2 : Int → Wrapper) : List (Object E) → List Entry → Prop
  | nil : Filter tree tile2 [] []
  | skip {o os es} : Octree.queryIntersect o.obj tree = [] → Filter tree tile2 os es → Filter tree tile2 (o :: os) es
  | keep {o os es ids} : Octree.queryIntersect o.obj tree ≠ [] → SortedBy id (Octree.queryIntersect o.obj tree) ids →
      Filter tree tile2 os es → Filter tree tile2 (o :: os) (mbbIntersect tile2 o.w ids :: es)

/-- `intersect` on two tiles (SpatialJoin.cpp:674-800): from the objects to the entries that are still undecided at the
end. `tile2->build_octree(400)` (tile.cpp:189-195). -/
def IntersectJoin (cfg : Cfg) (mid : ℚ → ℚ → ℚ) (heap : Nat → Voxel → List Tri) (tile1 : List (Object Tri)) (o : Object Tri)
    (os : List (Object Tri)) (tile2 : Int → Wrapper) (lods : List Nat) (start final : List Entry) : Prop :=
  ∃ fuel tree, Octree.build mid 400 fuel o.obj (os.map Object.obj) = some tree ∧
    Filter tree tile2 tile1 start ∧ IntersectRounds cfg heap lods start final

/-! ## Distances -/

/-- What the kernel computes for two segments (`SegDist_single`, SegDist.cpp:95-109). -/
def segD (s t : Seg) : WithTop ℚ :=
  segDist s.p t.p (vsub s.q s.p) (vsub t.q t.p) (vdot (vsub s.q s.p) (vsub s.q s.p)) (vdot (vsub t.q t.p) (vsub t.q t.p))

/-- `calculate_distance` without AABB trees (SpatialJoin.cpp:299-307, 352-415) and `get_distance` (geometry_computer.cpp:147-157):
the distances for the voxel pairs of `es`, for some order `m'` of the map, some content `junk` of uninitialised memory and some
schedule. Without a GPU the batch is split among `threads` threads. -/
def Calc (cfg : Cfg) (heap : Voxel → List Seg) (es : List Entry) (d : Nat → WithTop ℚ) : Prop :=
  ∃ (m' : VMap) (junk : Nat → ℚ), m'.Perm (voxelMap (fun v => (heap v).length) (flatPairs es)).1 ∧
    let data := fun i => (fillBuf 6 (fun v => (heap v).flatMap Seg.floats) m' i).getD (junk i)
    let os := osArr (voxelMap (fun v => (heap v).length) (flatPairs es)).1 (flatPairs es)
    let n := (flatPairs es).length
    match cfg with
    | .cpu threads => ∃ ws, Interleaving (distUnits (cpuDist data os) n threads) ws ∧ d = runWrites (fun _ => 0) ws
    | .gpu => ∃ vec0 dist0, SegDistBatch data os n (voxelMap (fun v => (heap v).length) (flatPairs es)).2 vec0 dist0 d

/-- One level of detail of `nearest_neighbor` (SpatialJoin.cpp:546-650); an infinite distance (of a pair with an empty voxel)
is never read. -/
def NNRound (cfg : Cfg) (heap : Voxel → List Seg) (top : Bool) (s s' : NNState) : Prop :=
  let r : Round := ⟨fun v => (heap v).length, fun _ _ => 0⟩
  ∃ d, ((flatPairs s.opened).length ≠ 0 → segmentPairs r s.opened ≠ 0 → Calc cfg heap s.opened d) ∧
    s' = nnStep top r (fun i => (d i).untopD 0) s

/-- All levels; `top` is the highest one. -/
inductive NNRounds (cfg : Cfg) (heap : Nat → Voxel → List Seg) (top : Nat) : List Nat → NNState → NNState → Prop
  | nil (s) : NNRounds cfg heap top [] s s
  | cons {lod lods s s' s''} : NNRound cfg (heap lod) (lod == top) s s' → NNRounds cfg heap top lods s' s'' →
      NNRounds cfg heap top (lod :: lods) s s''

/-- `mbb_nn` (SpatialJoin.cpp:172-238). -/
inductive NNFilter (tree : Octree.Node ℚ) (tile2 : Int → Wrapper) : List (Object Seg) → List Entry → Prop
  | nil : NNFilter tree tile2 [] []
  | skip {o os es} : (Octree.queryNN Fp.exact o.obj tree ([], none)).1 = [] → NNFilter tree tile2 os es →
      NNFilter tree tile2 (o :: os) es
  | empty {o os es ids} : SortedBy Prod.fst (Octree.queryNN Fp.exact o.obj tree ([], none)).1 ids →
      (mbbNN Fp.exact tile2 o.w ids).cands = [] → NNFilter tree tile2 os es → NNFilter tree tile2 (o :: os) es
  | keep {o os es ids} : SortedBy Prod.fst (Octree.queryNN Fp.exact o.obj tree ([], none)).1 ids →
      (mbbNN Fp.exact tile2 o.w ids).cands ≠ [] → NNFilter tree tile2 os es →
      NNFilter tree tile2 (o :: os) (mbbNN Fp.exact tile2 o.w ids :: es)

/-- `nearest_neighbor` on two tiles (SpatialJoin.cpp:529-656). -/
def NNJoin (cfg : Cfg) (mid : ℚ → ℚ → ℚ) (heap : Nat → Voxel → List Seg) (tile1 : List (Object Seg)) (o : Object Seg)
    (os : List (Object Seg)) (tile2 : Int → Wrapper) (lods : List Nat) (final : NNState) : Prop :=
  ∃ fuel tree start, Octree.build mid 400 fuel o.obj (os.map Object.obj) = some tree ∧
    NNFilter tree tile2 tile1 start ∧ NNRounds cfg heap (lods.getLastD 0) lods (dropDecided ⟨start, [], 0⟩) final

/-! ## The within join -/

/-- One level of detail of `within` (SpatialJoin.cpp:432-514). -/
def WithinRound (cfg : Cfg) (heap : Voxel → List Seg) (D : ℚ) (top : Bool) (es es' : List Entry) : Prop :=
  let r : Round := ⟨fun v => (heap v).length, fun _ _ => 0⟩
  ∃ d, ((flatPairs es).length ≠ 0 → segmentPairs r es ≠ 0 → Calc cfg heap es d) ∧
    es' = wiStep top D r (fun i => (d i).untopD 0) es

/-- All levels. -/
inductive WithinRounds (cfg : Cfg) (heap : Nat → Voxel → List Seg) (D : ℚ) (top : Nat) : List Nat → List Entry → List Entry → Prop
  | nil (es) : WithinRounds cfg heap D top [] es es
  | cons {lod lods es es' es''} : WithinRound cfg (heap lod) D (lod == top) es es' → WithinRounds cfg heap D top lods es' es'' →
      WithinRounds cfg heap D top (lod :: lods) es es''

/-- `mbb_within` (SpatialJoin.cpp:240-297). -/
inductive WithinFilter (D : ℚ) (tree : Octree.Node ℚ) (tile2 : Int → Wrapper) : List (Object Seg) → List Entry → Prop
  | nil : WithinFilter D tree tile2 [] []
  | skip {o os es ids} : SortedBy Prod.fst (Octree.queryWithin Fp.exact o.obj D tree) ids →
      (mbbWithin Fp.exact D tile2 o.w ids).cands = [] → WithinFilter D tree tile2 os es → WithinFilter D tree tile2 (o :: os) es
  | keep {o os es ids} : SortedBy Prod.fst (Octree.queryWithin Fp.exact o.obj D tree) ids →
      (mbbWithin Fp.exact D tile2 o.w ids).cands ≠ [] → WithinFilter D tree tile2 os es →
      WithinFilter D tree tile2 (o :: os) (mbbWithin Fp.exact D tile2 o.w ids :: es)

/-- `within` on two tiles (SpatialJoin.cpp:421-520) with limit `D` (on squared distances). -/
def WithinJoin (cfg : Cfg) (mid : ℚ → ℚ → ℚ) (heap : Nat → Voxel → List Seg) (D : ℚ) (tile1 : List (Object Seg)) (o : Object Seg)
    (os : List (Object Seg)) (tile2 : Int → Wrapper) (lods : List Nat) (start final : List Entry) : Prop :=
  ∃ fuel tree, Octree.build mid 400 fuel o.obj (os.map Object.obj) = some tree ∧
    WithinFilter D tree tile2 tile1 start ∧ WithinRounds cfg heap D (lods.getLastD 0) lods start final

end TDP.EndToEnd
