import Verif.Boxes.Model
import Verif.Octree.Model
import Verif.Common.Bytes
/-!
# Model of the sort partition (src/index/stree.cpp, src/index/index.h:61-91)

The tree has three levels of fixed meaning, so it is modelled as nested lists of nodes. `std::sort` is a
parameter (any sorting permutation). Asynchronous or failing file access is not modelled.
-/
namespace TDP.SortPart
open TDP.Boxes TDP.Octree TDP.Bytes

variable {α : Type} [LinearOrder α] [BoundedOrder α]

/-- A leaf `SPNode`. `objs` is a ghost field: the objects `add_object` was called with. -/
structure Leaf (α : Type) where
  box : Box α
  size : Nat
  objs : List (Obj α)

/-- An inner `SPNode` with its children. -/
structure Nd (α C : Type) where
  box : Box α
  size : Nat
  kids : List C

/-- `SPNode::SPNode` (index.h:66-68): the default `weighted_aab` has size 1 (aab.h:201). -/
def newLeaf : Leaf α := ⟨emptyBox, 1, []⟩
/-- The same constructor for a node that will get children. -/
def newNd {C : Type} : Nd α C := ⟨emptyBox, 1, []⟩

/-- `SPNode::add_object` (index.h:81-84). -/
def Leaf.addObject (n : Leaf α) (o : Obj α) : Leaf α := ⟨n.box.addBox o.box, n.size + o.size, n.objs ++ [o]⟩

/-- `SPNode::add_child` (index.h:75-80), given the child's box and size. -/
def Nd.addChild {C : Type} (n : Nd α C) (cbox : Box α) (csize : Nat) (c : C) : Nd α C :=
  ⟨n.box.addBox cbox, n.size + csize, n.kids ++ [c]⟩

abbrev YNode (α : Type) := Nd α (Leaf α)
abbrev XNode (α : Type) := Nd α (YNode α)
abbrev Root (α : Type) := Nd α (XNode α)

/-- The loops `for (x = 0; x < length; x += step)` with `step = (length + part - 1) / part`
(stree.cpp:115-124, 126-134, 136-138): the consecutive slices of the list. -/
def cutFrom {A : Type} (l : List A) (step : Nat) : Nat → Nat → List (List A)
  | 0, _ => []
  | k + 1, x =>
      if x < l.length then (l.drop x).take (min l.length (x + step) - x) :: cutFrom l step k (x + step)
      else []

/-- All slices; `length + 1` turns suffice. -/
def cut {A : Type} (part : Nat) (l : List A) : List (List A) :=
  cutFrom l ((l.length + part - 1) / part) (l.length + 1) 0

/-- The cuts per dimension (stree.cpp:108-110); `r` is `(int)pow(num_tiles, 1.0/3)`. -/
def parts (numTiles r : Nat) : Nat × Nat × Nat :=
  let px := max r 1
  (px, px, max (numTiles / px / px) 1)

/-- Lines 139-144. -/
def mkLeaf (objs : List (Obj α)) : Leaf α := objs.foldl Leaf.addObject newLeaf

/-- Lines 129-146. -/
def mkY (sort : Fin 3 → List (Obj α) → List (Obj α)) (pz : Nat) (objs : List (Obj α)) : YNode α :=
  (cut pz (sort 2 objs)).foldl (fun n g => let c := mkLeaf g; n.addChild c.box c.size c) newNd

/-- Lines 118-149. -/
def mkX (sort : Fin 3 → List (Obj α) → List (Obj α)) (py pz : Nat) (objs : List (Obj α)) : XNode α :=
  (cut py (sort 1 objs)).foldl (fun n g => let c := mkY sort pz g; n.addChild c.box c.size c) newNd

/-- `build_sort_partition` (stree.cpp:103-154). -/
def build (sort : Fin 3 → List (Obj α) → List (Obj α)) (numTiles r : Nat) (objs : List (Obj α)) : Root α :=
  let p := parts numTiles r
  (cut p.1 (sort 0 objs)).foldl (fun n g => let c := mkX sort p.2.1 p.2.2 g; n.addChild c.box c.size c) newNd

/-- `SPNode::genTiles` (stree.cpp:19-27). -/
def genTiles (t : Root α) : List (Box α) :=
  if t.kids.length = 0 then [t.box]
  else t.kids.flatMap (fun x => if x.kids.length = 0 then [x.box]
    else x.kids.flatMap (fun y => if y.kids.length = 0 then [y.box] else y.kids.map (·.box)))

/-- One leaf record (stree.cpp:83-85). -/
def putLeaf (fc : FloatCode α) (l : Leaf α) : List Nat :=
  put 4 (fc.toBits (l.box.min 0)) ++ put 4 (fc.toBits (l.box.min 1)) ++ put 4 (fc.toBits (l.box.min 2)) ++
  put 4 (fc.toBits (l.box.max 0)) ++ put 4 (fc.toBits (l.box.max 1)) ++ put 4 (fc.toBits (l.box.max 2)) ++
  put 4 l.size

/-- `SPNode::persist` (stree.cpp:57-91): the bytes written. The numbers of children of the *first* nodes are
used for all; `children[y]` beyond the end is undefined behaviour, modelled as `none`. Returning false
without writing is `some []`. -/
def persist (fc : FloatCode α) (t : Root α) : Option (List Nat) := do
  let px := t.kids.length
  match t.kids with
  | [] => some []
  | x0 :: _ =>
    let py := x0.kids.length
    match x0.kids with
    | [] => some []
    | y0 :: _ =>
      let pz := y0.kids.length
      if pz = 0 then some []
      else do
        let body ← (List.range px).mapM (fun x => do
          let xn ← t.kids[x]?
          let ys ← (List.range py).mapM (fun y => do
            let yn ← xn.kids[y]?
            let zs ← (List.range pz).mapM (fun z => do
              let l ← yn.kids[z]?
              pure (putLeaf fc l))
            pure zs.flatten)
          pure ys.flatten)
        pure (put 8 px ++ put 8 py ++ put 8 pz ++ body.flatten)

/-- Read one leaf (stree.cpp:44-47). The ghost field is empty. -/
def getLeaf (fc : FloatCode α) (s : List Nat) : Option (Leaf α × List Nat) := do
  let (a, s) ← get 4 s
  let (b, s) ← get 4 s
  let (c, s) ← get 4 s
  let (d, s) ← get 4 s
  let (e, s) ← get 4 s
  let (f, s) ← get 4 s
  let (n, s) ← get 4 s
  pure (⟨⟨pt3 (fc.ofBits a) (fc.ofBits b) (fc.ofBits c), pt3 (fc.ofBits d) (fc.ofBits e) (fc.ofBits f)⟩, n, []⟩, s)

/-- A counted loop reading children and adding them to a node. -/
def getKids {C : Type} (rd : List Nat → Option (C × List Nat)) (cbox : C → Box α) (csize : C → Nat) :
    Nat → Nd α C → List Nat → Option (Nd α C × List Nat)
  | 0, n, s => some (n, s)
  | k + 1, n, s => do
      let (c, s) ← rd s
      getKids rd cbox csize k (n.addChild (cbox c) (csize c) c) s

/-- `SPNode::load` (stree.cpp:29-56) on a fresh node. -/
def load (fc : FloatCode α) (s : List Nat) : Option (Root α) := do
  let (px, s) ← get 8 s
  let (py, s) ← get 8 s
  let (pz, s) ← get 8 s
  let rdY := fun s => getKids (getLeaf fc) (·.box) (·.size) pz newNd s
  let rdX := fun s => getKids rdY (·.box) (·.size) py newNd s
  let (t, _) ← getKids rdX (·.box) (·.size) px newNd s
  pure t

end TDP.SortPart
