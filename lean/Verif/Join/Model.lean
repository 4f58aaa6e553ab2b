import Verif.Octree.Model
import Mathlib.Order.WithBot
/-!
# Model of the join (src/join/SpatialJoin.cpp)

Objects of the second tile are identified by `id` (their position in the tile), voxels by their address.
`float` ranges are rationals; only the running minimum of a refinement round starts at infinity.
-/
namespace TDP.Join
open TDP.Boxes TDP.Octree

/-- `class Voxel` (spatial.h/himesh.h) as far as the join reads it outside of a round: address and box. -/
structure Voxel where
  addr : Nat
  box : Box ℚ

/-- `class HiMesh_Wrapper` as far as the join reads it. -/
structure Wrapper where
  id : Int
  box : Box ℚ
  voxels : List Voxel

/-- `class voxel_pair` (SpatialJoin.h:87-102). -/
structure VPair where
  v1 : Voxel
  v2 : Voxel
  dist : Range
  intersect : Bool

/-- `candidate_info` (SpatialJoin.h:104-108). -/
structure Cand where
  mesh : Wrapper
  distance : Range
  pairs : List VPair

/-- `candidate_entry` (SpatialJoin.h:110). -/
structure Entry where
  mesh : Wrapper
  cands : List Cand

/-- A range whose upper end may be infinite (`range min_candidate; maxdist = DBL_MAX`,
SpatialJoin.cpp:600-601). -/
structure RangeT where
  mindist : ℚ
  maxdist : WithTop ℚ

/-- An ordinary range. -/
def ofRange (r : Range) : RangeT := ⟨r.mindist, r.maxdist⟩

/-- `range::operator>` (aab.h:29-31). -/
def RangeT.gt (d : RangeT) (x : Range) : Bool := decide (d.mindist > x.maxdist)
/-- `range::operator<` (aab.h:32-34). -/
def RangeT.lt (d : RangeT) (x : Range) : Bool := decide (d.maxdist < (x.mindist : WithTop ℚ))

/-! ## Pruning -/

/-- `update_voxel_pair_list` (SpatialJoin.cpp:21-35): the returned flag and the list afterwards. -/
def updPairs (d : RangeT) : List VPair → Bool × List VPair
  | [] => (true, [])
  | x :: xs =>
      if d.gt x.dist then (false, x :: xs)
      else if d.lt x.dist then updPairs d xs
      else
        let r := updPairs d xs
        (r.1, x :: r.2)

/-- `update_candidate_list` (SpatialJoin.cpp:37-67): the returned flag and the list afterwards. -/
def updCands (d : RangeT) : List Cand → Bool × List Cand
  | [] => (true, [])
  | c :: cs =>
      if d.gt c.distance then (false, c :: cs)
      else if d.lt c.distance then updCands d cs
      else
        let p := updPairs d c.pairs
        if p.1 = false then (false, { c with pairs := p.2 } :: cs)
        else if p.2.length = 0 then updCands d cs
        else
          let r := updCands d cs
          (r.1, { c with pairs := p.2 } :: r.2)

/-! ## Filtering with the boxes -/

/-- The sort-and-skip loops (SpatialJoin.cpp:136-142, 188-196, 248-254) on the sorted list: an element whose
identifier equals `former` is skipped. -/
def skipDup {A : Type} (key : A → Int) : Int → List A → List A
  | _, [] => []
  | former, a :: as => if key a = former then skipDup key former as else a :: skipDup key (key a) as

/-- `compare_pair` / `operator<` (SpatialJoin.cpp:112-114, 136): `s` is a possible result of `std::sort`. -/
def SortedBy {A : Type} (key : A → Int) (l s : List A) : Prop :=
  s.Perm l ∧ s.Pairwise (fun a b => key a ≤ key b)

/-- Every pair of a voxel of the one with a voxel of the other object, in the order of the nested loops. -/
def voxelPairs (w1 w2 : Wrapper) : List (Voxel × Voxel) :=
  w1.voxels.flatMap (fun v1 => w2.voxels.map (fun v2 => (v1, v2)))

/-- `mbb_intersect`, the voxel pairs of one candidate (SpatialJoin.cpp:143-154). -/
def intersectCand (w1 w2 : Wrapper) : Cand where
  mesh := w2
  distance := ⟨0, 0⟩
  pairs := ((voxelPairs w1 w2).filter (fun p => p.1.box.intersect p.2.box)).map
    (fun p => ⟨p.1, p.2, ⟨0, 0⟩, false⟩)

/-- `mbb_intersect` for one object (SpatialJoin.cpp:125-163); `ids` is the sorted result of the index. -/
def mbbIntersect (tile2 : Int → Wrapper) (w1 : Wrapper) (ids : List Int) : Entry where
  mesh := w1
  cands := ((skipDup id (-1) ids).map (fun i => intersectCand w1 (tile2 i))).filter (fun c => c.pairs.length > 0)

/-- One voxel pair in `mbb_nn` (SpatialJoin.cpp:208-213). State: the candidate list and the voxel pairs of
the candidate under construction. -/
def nnVoxel (F : Fp) (st : List Cand × List VPair) (p : Voxel × Voxel) : List Cand × List VPair :=
  let tmpd := p.1.box.distance F p.2.box
  let r := updPairs (ofRange tmpd) st.2
  if r.1 then
    let r2 := updCands (ofRange tmpd) st.1
    if r2.1 then (r2.2, r.2 ++ [⟨p.1, p.2, tmpd, false⟩]) else (r2.2, r.2)
  else (st.1, r.2)

/-- `ci.distance` (SpatialJoin.cpp:219-222). -/
def hullDist : List VPair → Range
  | [] => ⟨0, 0⟩
  | x :: xs => (x :: xs).foldl (fun r p => r.update p.dist) x.dist

/-- One candidate in `mbb_nn` (SpatialJoin.cpp:198-227). -/
def nnCand (F : Fp) (tile2 : Int → Wrapper) (w1 : Wrapper) (cands : List Cand) (p : Int × Range) : List Cand :=
  let r := updCands (ofRange p.2) cands
  if r.1 then
    let w2 := tile2 p.1
    let st := (voxelPairs w1 w2).foldl (nnVoxel F) (r.2, [])
    if st.2.length > 0 then st.1 ++ [⟨w2, hullDist st.2, st.2⟩] else st.1
  else r.2

/-- `mbb_nn` for one object (SpatialJoin.cpp:176-233); `ids` is the sorted result of the index. -/
def mbbNN (F : Fp) (tile2 : Int → Wrapper) (w1 : Wrapper) (ids : List (Int × Range)) : Entry where
  mesh := w1
  cands := (skipDup Prod.fst (-1) ids).foldl (nnCand F tile2 w1) []

/-- The inner loop of `mbb_within` (SpatialJoin.cpp:260-280) over the voxel pairs: `none` when a pair is
known to be within the distance (the list is cleared). -/
def withinPairs (F : Fp) (D : ℚ) : List (Voxel × Voxel) → Option (List VPair)
  | [] => some []
  | p :: ps =>
      let tmpd := p.1.box.distance F p.2.box
      if tmpd.mindist > D then withinPairs F D ps
      else if tmpd.maxdist ≤ D then none
      else (withinPairs F D ps).map (fun l => ⟨p.1, p.2, tmpd, false⟩ :: l)

/-- `mbb_within` for one object (SpatialJoin.cpp:241-291). The `distance` field is left uninitialised by the
code and never read by `within`. -/
def mbbWithin (F : Fp) (D : ℚ) (tile2 : Int → Wrapper) (w1 : Wrapper) (ids : List (Int × Range)) : Entry where
  mesh := w1
  cands := (skipDup Prod.fst (-1) ids).filterMap (fun p =>
    match withinPairs F D (voxelPairs w1 (tile2 p.1)) with
    | none => none
    | some [] => none
    | some (x :: xs) => some ⟨tile2 p.1, ⟨0, 0⟩, x :: xs⟩)

/-! ## Packing a batch (SpatialJoin.cpp:352-398, 694-757) -/

/-- All voxel pairs in the order of the triple loops. -/
def flatPairs (es : List Entry) : List VPair := es.flatMap (fun e => e.cands.flatMap (·.pairs))

/-- `voxel_map`: address, offset, size, in order of insertion. -/
abbrev VMap := List (Voxel × (Nat × Nat))

/-- `voxel_map.find(tv)`. -/
def VMap.find (m : VMap) (v : Voxel) : Option (Nat × Nat) := (List.find? (fun e => e.1.addr == v.addr) m).map (·.2)

/-- The loop body for one voxel (SpatialJoin.cpp:362-369, 713-720); `uint` arithmetic. -/
def addVoxel (size : Voxel → Nat) (st : VMap × Nat) (v : Voxel) : VMap × Nat :=
  match st.1.find v with
  | some _ => st
  | none => (st.1 ++ [(v, (st.2, size v))], (st.2 + size v) % 2^32)

/-- The whole map and the number of elements. -/
def voxelMap (size : Voxel → Nat) (ps : List VPair) : VMap × Nat :=
  ps.foldl (fun st p => addVoxel size (addVoxel size st p.v1) p.v2) ([], 0)

/-- The data buffer: `none` is an uninitialised float. -/
abbrev Buf := Nat → Option ℚ

/-- `memcpy` of `src` to position `off`. -/
def blit (b : Buf) (off : Nat) (src : List ℚ) : Buf := fun i => if off ≤ i ∧ i < off + src.length then src[i - off]? else b i

/-- The copy loop (SpatialJoin.cpp:381-384, 734-739); `k` is the number of floats of an element (6 or 9), the
product `first*k` is a `uint`. The map is walked in the order of `m` (the code: by address). -/
def fillBuf (k : Nat) (dat : Voxel → List ℚ) (m : VMap) : Buf :=
  m.foldl (fun b e => blit b (e.2.1 * k % 2^32) (dat e.1)) (fun _ => none)

/-- `offset_size` of one pair (SpatialJoin.cpp:391-394, 750-753); `operator[]` of a missing key gives zeros. -/
def offsetSize (m : VMap) (p : VPair) : Nat × Nat × Nat × Nat :=
  let a := (m.find p.v1).getD (0, 0)
  let b := (m.find p.v2).getD (0, 0)
  (a.1, a.2, b.1, b.2)

/-- The floats a kernel reads for a slice (geometry_computer.cpp:17-20, 162-165). -/
def slice (b : Buf) (k off size : Nat) : List (Option ℚ) := (List.range (size * k)).map (fun i => b (off * k % 2^32 + i))

/-! ## Refinement rounds -/

/-- `query_context::highest_lod` (SpatialJoin.h:45-51). -/
def highestLod (lods : List Int) : Int := lods.getLastD 0

/-- The new range of a sized voxel pair (SpatialJoin.cpp:486-494, 606-613). -/
def refine (top : Bool) (r : Range) (d : ℚ) : Range := if top then ⟨d, d⟩ else ⟨r.mindist, min r.maxdist d⟩

/-- The pair loop of a nearest-neighbour round (SpatialJoin.cpp:603-620). State: `index` and
`min_candidate`. `sized` is `v1->size[lod]>0 && v2->size[lod]>0`. -/
def nnPairs (top : Bool) (sized : VPair → Bool) (distances : Nat → ℚ) :
    Nat × RangeT → List VPair → (Nat × RangeT) × List VPair
  | st, [] => (st, [])
  | (index, mc), vp :: vps =>
      if sized vp then
        let dist := refine top vp.dist (distances index)
        let mc' := if mc.maxdist > (dist.maxdist : WithTop ℚ) then ofRange dist else mc
        let r := nnPairs top sized distances (index + 1, mc') vps
        (r.1, { vp with dist := dist } :: r.2)
      else
        let r := nnPairs top sized distances (index + 1, mc) vps
        (r.1, vp :: r.2)

/-- The candidate loop (SpatialJoin.cpp:602-621). -/
def nnCands (top : Bool) (sized : VPair → Bool) (distances : Nat → ℚ) :
    Nat × RangeT → List Cand → (Nat × RangeT) × List Cand
  | st, [] => (st, [])
  | st, c :: cs =>
      let p := nnPairs top sized distances st c.pairs
      let r := nnCands top sized distances p.1 cs
      (r.1, { c with pairs := p.2 } :: r.2)

/-- The entry loop (SpatialJoin.cpp:598-626): the entries, and `ctx.max_nearest_distance`. -/
def nnEntries (top : Bool) (sized : VPair → Bool) (distances : Nat → ℚ) :
    Nat → WithTop ℚ → List Entry → List Entry × WithTop ℚ
  | _, mn, [] => ([], mn)
  | index, mn, e :: es =>
      let r := nnCands top sized distances (index, ⟨0, ⊤⟩) e.cands
      let mn' := if r.1.2.maxdist > mn then r.1.2.maxdist else mn
      let t := nnEntries top sized distances r.1.1 mn' es
      ({ e with cands := (updCands r.1.2 r.2).2 } :: t.1, t.2)

/-- State of `nearest_neighbor`: the open entries, the entries erased because at most one candidate is left
(a ghost log: the code forgets them, their only candidate is the answer), and `max_nearest_distance`. -/
structure NNState where
  opened : List Entry
  decided : List Entry
  maxNear : WithTop ℚ

/-- Erasing the entries that are decided (SpatialJoin.cpp:536-542, 638-644). -/
def dropDecided (s : NNState) : NNState :=
  { s with
    opened := s.opened.filter (fun e => decide (¬ e.cands.length ≤ 1))
    decided := s.decided ++ s.opened.filter (fun e => decide (e.cands.length ≤ 1)) }

/-- What a round computes with: sizes and kernel results at a level. -/
structure Round where
  size : Voxel → Nat
  kernel : Voxel → Voxel → ℚ

/-- `vp.v1->size[lod]>0 && vp.v2->size[lod]>0`. -/
def Round.sized (r : Round) (p : VPair) : Bool := decide (r.size p.v1 > 0) && decide (r.size p.v2 > 0)

/-- `calculate_distance` as an array (SpatialJoin.cpp:299-415): entry `i` is the kernel's answer for pair
`i` (that this is what packing, splitting among threads and the kernel give is `C33`, `C34`). -/
def distancesOf (r : Round) (es : List Entry) (i : Nat) : ℚ :=
  match (flatPairs es)[i]? with
  | some p => r.kernel p.v1 p.v2
  | none => 0

/-- `segment_pair_num` (SpatialJoin.cpp:441-462, 556-581). -/
def segmentPairs (r : Round) (es : List Entry) : Nat := ((flatPairs es).map (fun p => r.size p.v1 * r.size p.v2)).sum

/-- One level of detail in `nearest_neighbor` (SpatialJoin.cpp:546-650) with any array of distances. `break` and `continue`
leave the entries as they are; after a `break` no pair is left, so later rounds do nothing. -/
def nnStep (top : Bool) (r : Round) (distances : Nat → ℚ) (s : NNState) : NNState :=
  if (flatPairs s.opened).length = 0 then s
  else if segmentPairs r s.opened = 0 then s
  else
    let t := nnEntries top r.sized distances 0 s.maxNear s.opened
    dropDecided { s with opened := t.1, maxNear := t.2 }

/-- One level of detail with the kernel's answers. -/
def nnRound (top : Bool) (r : Round) (s : NNState) : NNState := nnStep top r (distancesOf r s.opened) s

/-- `nearest_neighbor` after filtering (SpatialJoin.cpp:536-650); `ctx.max_nearest_distance` is initially 0. -/
def nearestNeighbor (lods : List Int) (rounds : Int → Round) (es : List Entry) : NNState :=
  lods.foldl (fun s lod => nnRound (lod == highestLod lods) (rounds lod) s) (dropDecided ⟨es, [], 0⟩)

/-- The pair loop of a within round (SpatialJoin.cpp:483-502); state: `index`, `determined`. -/
def wiPairs (top : Bool) (D : ℚ) (sized : VPair → Bool) (distances : Nat → ℚ) :
    Nat × Bool → List VPair → (Nat × Bool) × List VPair
  | st, [] => (st, [])
  | (index, det), vp :: vps =>
      if !det && sized vp then
        let dist := refine top vp.dist (distances index)
        let hit := decide (dist.maxdist < D)
        let r := wiPairs top D sized distances (index + 1, det || hit) vps
        (r.1, { vp with dist := dist, intersect := vp.intersect || hit } :: r.2)
      else
        let r := wiPairs top D sized distances (index + 1, det) vps
        (r.1, vp :: r.2)

/-- The candidate loop (SpatialJoin.cpp:481-504): a determined entry's remaining candidates are skipped
without advancing `index`. -/
def wiCands (top : Bool) (D : ℚ) (sized : VPair → Bool) (distances : Nat → ℚ) :
    Nat × Bool → List Cand → (Nat × Bool) × List Cand
  | st, [] => (st, [])
  | st, c :: cs =>
      if !st.2 then
        let p := wiPairs top D sized distances st c.pairs
        let r := wiCands top D sized distances p.1 cs
        (r.1, { c with pairs := p.2 } :: r.2)
      else
        let r := wiCands top D sized distances st cs
        (r.1, c :: r.2)

/-- The entry loop (SpatialJoin.cpp:478-505). -/
def wiEntries (top : Bool) (D : ℚ) (sized : VPair → Bool) (distances : Nat → ℚ) : Nat → List Entry → List Entry
  | _, [] => []
  | index, e :: es =>
      let r := wiCands top D sized distances (index, false) e.cands
      { e with cands := r.2 } :: wiEntries top D sized distances r.1.1 es

/-- `update_candidate_list_intersect` (SpatialJoin.cpp:69-94). -/
def dropHit (es : List Entry) : List Entry :=
  es.filter (fun e => !(e.cands.any (fun c => c.pairs.any (·.intersect))))

/-- One level of detail in `within` (SpatialJoin.cpp:432-514) with any array of distances. -/
def wiStep (top : Bool) (D : ℚ) (r : Round) (distances : Nat → ℚ) (es : List Entry) : List Entry :=
  if (flatPairs es).length = 0 then es
  else if segmentPairs r es = 0 then es
  else dropHit (wiEntries top D r.sized distances 0 es)

/-- One level of detail with the kernel's answers. -/
def wiRound (top : Bool) (D : ℚ) (r : Round) (es : List Entry) : List Entry := wiStep top D r (distancesOf r es) es

/-- The status loop of `intersect` (SpatialJoin.cpp:773-781). -/
def markPairs (status : Nat → Bool) : Nat → List VPair → Nat × List VPair
  | i, [] => (i, [])
  | i, p :: ps =>
      let r := markPairs status (i + 1) ps
      (r.1, { p with intersect := p.intersect || status i } :: r.2)
/-- Candidates. -/
def markCands (status : Nat → Bool) : Nat → List Cand → Nat × List Cand
  | i, [] => (i, [])
  | i, c :: cs =>
      let p := markPairs status i c.pairs
      let r := markCands status p.1 cs
      (r.1, { c with pairs := p.2 } :: r.2)
/-- Entries. -/
def markEntries (status : Nat → Bool) : Nat → List Entry → List Entry
  | _, [] => []
  | i, e :: es =>
      let r := markCands status i e.cands
      { e with cands := r.2 } :: markEntries status r.1 es

/-- One level of detail in `intersect` (SpatialJoin.cpp:686-792): `hit` is the kernel's answer at this level;
`status` is the array the kernels fill, indexed by the flattened pairs. -/
def intersectRound (hit : Voxel → Voxel → Bool) (es : List Entry) : List Entry :=
  if (flatPairs es).length = 0 then es
  else dropHit (markEntries (fun i => match (flatPairs es)[i]? with
    | some p => hit p.v1 p.v2
    | none => false) 0 es)

end TDP.Join
