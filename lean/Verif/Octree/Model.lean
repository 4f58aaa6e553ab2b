import Verif.Boxes.Model
/-!
# Model of the octree (src/index/octree.cpp, src/index/index.h:36-58)

Coordinates are any linear order `α`; the mid point of two coordinates is a parameter `mid`
(`(low + high) / 2`, octree.cpp:49, with whatever rounding). Sizes are natural numbers (`uint` without
wrap-around). Recursion carries a fuel; running out of it is `none` (an endless recursion).
-/
namespace TDP.Octree
open TDP.Boxes

/-- `weighted_aab` (aab.h:197-208). `ptr` is the address, used by `obj == box`. -/
structure Obj (α : Type) where
  ptr : Nat
  id : Int
  box : Box α
  size : Nat

/-- `class OctreeNode` (index.h:36-58); `leaf` is `isLeaf = true`. -/
inductive Node (α : Type)
  | leaf (box : Box α) (size : Nat) (canBeSplit : Bool) (objs : List (Obj α))
  | inner (box : Box α) (size : Nat) (objs : List (Obj α)) (children : Fin 8 → Node α)

variable {α : Type} [LinearOrder α]

/-- `node_voxel.box`. -/
def Node.box : Node α → Box α
  | .leaf b _ _ _ => b
  | .inner b _ _ _ => b

/-- Child `i` (octree.cpp:54-61): bit `a` of `i` says which half is taken on axis `a`. -/
def octant (mid : α → α → α) (b : Box α) (i : Fin 8) : Box α where
  min a := if i.val.testBit a.val then mid (b.min a) (b.max a) else b.min a
  max a := if i.val.testBit a.val then b.max a else mid (b.min a) (b.max a)

/-- The constructor (octree.cpp:8-15). -/
def newNode (b : Box α) : Node α := .leaf b 0 true []

/-- All of eight results, or none. -/
def seq8 {A : Type} (f : Fin 8 → Option A) : Option (Fin 8 → A) :=
  if h : ∀ i, (f i).isSome = true then some (fun i => (f i).get (h i)) else none

/-- `totalChildrenSize` (octree.cpp:64-75). -/
def childrenSize (mid : α → α → α) (b : Box α) (objs : List (Obj α)) : Nat :=
  (objs.map (fun v => ((List.finRange 8).map (fun i =>
    if (octant mid b i).intersect v.box then v.size else 0)).sum)).sum

/-- `OctreeNode::addObject` (octree.cpp:31-102). `2 * size > 3 * tile` is `size > 1.5 * tile_size`. -/
def add (mid : α → α → α) (tile : Nat) : Nat → Obj α → Node α → Option (Node α)
  | 0, _, _ => none
  | n + 1, o, .leaf b size can objs =>
      let size := size + o.size
      let objs := objs ++ [o]
      if size = o.size then some (.leaf b size can objs)
      else if size > tile ∧ can = true then
        match objs.foldlM (fun (c : Fin 8 → Node α) v =>
            seq8 (fun i => if (octant mid b i).intersect v.box then add mid tile n v (c i) else some (c i)))
          (fun i => newNode (octant mid b i)) with
        | none => none
        | some c =>
          if childrenSize mid b objs ≥ 2 * (size - 1) then some (.leaf b size false objs)
          else some (.inner b size [] c)
      else some (.leaf b size (if 2 * size > 3 * tile then true else can) objs)
  | n + 1, o, .inner b size objs c =>
      let size := size + o.size
      if size = o.size then some (.inner b size (objs ++ [o]) c)
      else
        (seq8 (fun i => if (octant mid b i).intersect o.box then add mid tile n o (c i) else some (c i))).map
          (fun c => .inner b size objs c)

/-- The box of a nonempty list of objects (octree.cpp:209-212); the default box is neutral, so starting
with the first object's box is the same. -/
def rootBox (o : Obj α) (os : List (Obj α)) : Box α := os.foldl (fun b v => b.addBox v.box) o.box

/-- `build_octree` (octree.cpp:206-218) on a nonempty list. (On an empty list the tree is one leaf without
objects.) -/
def build (mid : α → α → α) (tile fuel : Nat) (o : Obj α) (os : List (Obj α)) : Option (Node α) :=
  (o :: os).foldlM (fun n v => add mid tile fuel v n) (newNode (rootBox o os))

/-- `OctreeNode::genTiles` (octree.cpp:104-114). -/
def genTiles : Node α → List (Box α)
  | .leaf b _ _ objs => if objs.length > 0 then [b] else []
  | .inner _ _ _ c => (List.finRange 8).flatMap (fun i => genTiles (c i))

/-- `OctreeNode::query_intersect` (octree.cpp:187-204). -/
def queryIntersect (q : Obj α) : Node α → List Int
  | .leaf b _ _ objs =>
      if b.intersect q.box then
        (objs.filter (fun o => !(o.ptr == q.ptr) && o.box.intersect q.box)).map (·.id)
      else []
  | .inner b _ _ c =>
      if b.intersect q.box then (List.finRange 8).flatMap (fun i => queryIntersect q (c i)) else []

/-- `OctreeNode::query_within` (octree.cpp:165-185). -/
def queryWithin (F : Fp) (q : Obj ℚ) (maxDist : ℚ) : Node ℚ → List (Int × Range)
  | .leaf b _ _ objs =>
      if (b.distance F q.box).mindist ≤ maxDist then
        (objs.filter (fun o => !(o.ptr == q.ptr) && decide ((o.box.distance F q.box).mindist ≤ maxDist))).map
          (fun o => (o.id, o.box.distance F q.box))
      else []
  | .inner b _ _ c =>
      if (b.distance F q.box).mindist ≤ maxDist then
        (List.finRange 8).flatMap (fun i => queryWithin F q maxDist (c i))
      else []

/-- The loop of `update_distance_list` (octree.cpp:116-130) from index `i`: `i++` in the body *and* in the
loop head, except after an erase. Returns the list and `keep`. -/
def updateLoop (d : Range) : Nat → Nat → List (Int × Range) → Bool → List (Int × Range) × Bool
  | 0, _, l, keep => (l, keep)
  | n + 1, i, l, keep =>
      match l[i]? with
      | none => (l, keep)
      | some r =>
          if r.2.lt d then updateLoop d n (i + 2) l false
          else if r.2.gt d then updateLoop d n (i + 1) (l.eraseIdx i) keep
          else updateLoop d n (i + 2) l keep

/-- `update_distance_list`. -/
def updateDistanceList (d : Range) (l : List (Int × Range)) : List (Int × Range) × Bool :=
  updateLoop d l.length 0 l true

/-- `MINMAXDIST`: `none` is the initial infinity (`DBL_MAX` in a `float`). -/
def leMM (x : ℚ) : Option ℚ → Bool
  | none => true
  | some m => decide (x ≤ m)

/-- One turn of the loop over the objects of a leaf (octree.cpp:138-156). -/
def nnStep (F : Fp) (q : Obj ℚ) (st : List (Int × Range) × Option ℚ) (o : Obj ℚ) :
    List (Int × Range) × Option ℚ :=
  if o.ptr == q.ptr then st
  else
    let d := o.box.distance F q.box
    if leMM d.mindist st.2 then
      let r := updateDistanceList d st.1
      if r.2 then
        (r.1 ++ [(o.id, d)], match st.2 with
          | none => some d.maxdist
          | some m => some (if m > d.maxdist then d.maxdist else m))
      else (r.1, st.2)
    else st

/-- `OctreeNode::query_nn` (octree.cpp:132-163). -/
def queryNN (F : Fp) (q : Obj ℚ) : Node ℚ → List (Int × Range) × Option ℚ → List (Int × Range) × Option ℚ
  | .leaf b _ _ objs, st => if leMM (b.distance F q.box).mindist st.2 then objs.foldl (nnStep F q) st else st
  | .inner b _ _ c, st =>
      if leMM (b.distance F q.box).mindist st.2 then (List.finRange 8).foldl (fun st i => queryNN F q (c i) st) st
      else st

end TDP.Octree
