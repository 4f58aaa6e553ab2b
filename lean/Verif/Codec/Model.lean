import Verif.Traversal.Model
/-!
# Model of a polyhedron with its Euler operators, and of one compression and one decompression level
(src/PPMC/mymeshComp.cpp:28-240, src/PPMC/mymeshCompTests.cpp:23-62, 180-213,
src/PPMC/mymeshUtils.cpp:270-288, src/PPMC/mymeshDecomp.cpp:238-310)

`MyMesh` derives from `CGAL::Polyhedron_3` (mymesh.h:328), whose sources are not part of the repository.
Its pointer structure and the Euler operators the project calls are modelled after CGAL's reference
manual: a halfedge has `next()`, `opposite()`, `facet()` and `vertex()` (the vertex it points to).
Halfedges, facets and vertices are numbers; new ones are taken from counters. The order in which CGAL
stores halfedges, facets and vertices is not part of the model: where the code depends on it (the
starting gate, the order of `removeInsertedEdges`) it is a parameter.
-/
namespace TDP.Codec
open TDP.Traversal

/-- A polyhedron: live halfedges, their pointers, vertex positions, and the counters for new items. -/
structure Mesh (P : Type) where
  darts : Finset Nat
  next : Nat → Nat
  opp : Nat → Nat
  face : Nat → Nat
  vert : Nat → Nat
  pos : Nat → P
  nd : Nat
  nf : Nat
  nv : Nat

variable {P : Type}

/-- The part of it the coding traversals look at. -/
abbrev Mesh.h (m : Mesh P) : HMesh Nat Nat := ⟨m.darts, m.next, m.opp, m.face⟩

/-- The vertex a halfedge leaves, `h->opposite()->vertex()`. -/
abbrev Mesh.src (m : Mesh P) (d : Nat) : Nat := m.vert (m.opp d)

/-- `facet_degree()` of the facet of `d`. -/
def Mesh.deg (m : Mesh P) (d : Nat) : Nat := (around m.h d).length

/-- `h->opposite()->next()`: the next halfedge leaving the same vertex. CGAL's vertex circulator
(`h->next()->opposite()`) visits the opposites of these in the same order. -/
abbrev Mesh.rot (m : Mesh P) (d : Nat) : Nat := m.next (m.opp d)

/-- All halfedges leaving the vertex that `d` leaves, starting with `d`. -/
def Mesh.ring (m : Mesh P) (d : Nat) : List Nat := loopFrom m.rot d m.darts.card d

/-- The halfedges from `d` to `g` around a facet. -/
def walk (next : Nat → Nat) (g : Nat) : Nat → Nat → List Nat
  | 0, _ => []
  | k + 1, d => d :: if d = g then [] else walk next g k (next d)

/-- `split_facet(h, g)`: a new edge from the vertex of `h` to the vertex of `g`; the returned halfedge
(`m.nd`) follows `h` and stays in the old facet, the facet of its opposite (`m.nd + 1`), which gets the
halfedges from `h->next()` to `g`, is new. -/
def splitFacet (m : Mesh P) (h g : Nat) : Mesh P :=
  let rest := walk m.next g m.darts.card (m.next h)
  { darts := insert m.nd (insert (m.nd + 1) m.darts)
    next := fun d => if d = h then m.nd else if d = g then m.nd + 1 else if d = m.nd then m.next g
      else if d = m.nd + 1 then m.next h else m.next d
    opp := fun d => if d = m.nd then m.nd + 1 else if d = m.nd + 1 then m.nd else m.opp d
    face := fun d => if d = m.nd then m.face h else if d = m.nd + 1 ∨ d ∈ rest then m.nf else m.face d
    vert := fun d => if d = m.nd then m.vert g else if d = m.nd + 1 then m.vert h else m.vert d
    pos := m.pos
    nd := m.nd + 2
    nf := m.nf + 1
    nv := m.nv }

/-- `erase_center_vertex(h)`: erases the vertex of `h` and all incident halfedges; the incident facets
are merged into the facet of `h`. -/
def eraseCenter (m : Mesh P) (h : Nat) : Mesh P :=
  { m with
    darts := m.darts.filter (fun d => m.vert d ≠ m.vert h ∧ m.src d ≠ m.vert h)
    next := fun d => if m.vert (m.next d) = m.vert h then m.next (m.opp (m.next d)) else m.next d
    face := fun d => if m.darts.filter (fun x => m.vert x = m.vert h ∧ m.face x = m.face d) ≠ ∅
      then m.face h else m.face d }

/-- `h->prev()`. -/
def Mesh.prev (m : Mesh P) (h : Nat) : Nat := (around m.h h).getLastD h

/-- `create_center_vertex(h)`, and the assignment of position `p` to the new vertex
(mymeshDecomp.cpp:277-279): the `i`-th halfedge `d` around the facet, counted from `h`, is followed by the
new halfedge `m.nd + 2 * i` to the new vertex, whose opposite is `m.nd + 2 * i + 1`. The triangle of `h`
keeps the facet, the others are new. -/
def createCenter (m : Mesh P) (h : Nat) (p : P) : Mesh P :=
  let loop := around m.h h
  let k := loop.length
  { darts := m.darts ∪ (Finset.range (2 * k)).image (fun i => m.nd + i)
    next := fun d =>
      if m.nd ≤ d ∧ d < m.nd + 2 * k then
        let i := (d - m.nd) / 2
        if (d - m.nd) % 2 = 0 then m.nd + 2 * (if i = 0 then k - 1 else i - 1) + 1
        else m.next (loop.getD i 0)
      else if d ∈ loop then m.nd + 2 * loop.idxOf d else m.next d
    opp := fun d =>
      if m.nd ≤ d ∧ d < m.nd + 2 * k then (if (d - m.nd) % 2 = 0 then d + 1 else d - 1) else m.opp d
    face := fun d =>
      let tri := fun i => if i = 0 then m.face h else m.nf + i - 1
      if m.nd ≤ d ∧ d < m.nd + 2 * k then
        let i := (d - m.nd) / 2
        if (d - m.nd) % 2 = 0 then tri i else tri (if i + 1 = k then 0 else i + 1)
      else if d ∈ loop then tri (loop.idxOf d) else m.face d
    vert := fun d =>
      if m.nd ≤ d ∧ d < m.nd + 2 * k then
        (if (d - m.nd) % 2 = 0 then m.nv else m.vert (loop.getD ((d - m.nd) / 2) 0))
      else m.vert d
    pos := fun v => if v = m.nv then p else m.pos v
    nd := m.nd + 2 * k
    nf := m.nf + (k - 1)
    nv := m.nv + 1 }

/-- `join_facet(h)`: erases the edge of `h`; the facet of `h->opposite()` is merged into that of `h`. -/
def joinFacet (m : Mesh P) (h : Nat) : Mesh P :=
  { m with
    darts := (m.darts.erase h).erase (m.opp h)
    next := fun d => if m.next d = h then m.next (m.opp h) else if m.next d = m.opp h then m.next h else m.next d
    face := fun d => if m.face d = m.face (m.opp h) then m.face h else m.face d }

/-! ### Compression: the decimation conquest -/

/-- The state of a decimation conquest: the mesh, `MyFace::flag`, `MyFace::removedVertexPos`,
`MyVertex::flag`, "`flag2` is `Added`", `gateQueue`, `i_nbRemovedVertices`. The in-queue flags of
halfedges (mymesh.h:236) are written but never read, and left out. -/
structure St (P : Type) where
  m : Mesh P
  flag : Nat → Flag
  rem : Nat → Option P
  conq : Nat → Bool
  added : Nat → Bool
  queue : List Nat
  nrem : Nat

/-- `willViolateManifold` (mymeshCompTests.cpp:27-62). `polygon[i]` is the `i`-th halfedge leaving the
vertex; `nbrs i` are the vertices next to its target. -/
def willViolateManifold (m : Mesh P) (polygon : List Nat) : Bool :=
  let k := polygon.length
  (List.range k).any fun i =>
    let d := polygon.getD i 0
    ((m.ring (m.opp d)).map m.vert).any fun vh =>
      (List.range k).any fun j =>
        vh == m.vert (polygon.getD j 0) &&
          ((j == (if i = 0 then k - 1 else i - 1) && m.deg d != 3) ||
           (j == (if i = k - 1 then 0 else i + 1) && m.deg (m.opp d) != 3))

/-- `isRemovable` (mymeshCompTests.cpp:180-213) of the vertex `hh` points to. The geometric test
`isConvex` is a parameter. `v0`, `v1` are `vh_departureConquest[0..1]`. -/
def isRemovable (convex : Mesh P → Nat → Bool) (v0 v1 : Nat) (s : St P) (hh : Nat) : Bool :=
  let v := s.m.vert hh
  let polygon := s.m.ring (s.m.opp hh)
  v != v0 && v != v1 && !s.conq v && decide (2 < polygon.length) && decide (polygon.length ≤ 8) &&
    (!willViolateManifold s.m polygon && convex s.m v)

/-- The loop finding `hSplit` (mymeshComp.cpp:187-189): from `h->next()` on, the first halfedge whose
second successor is `h`. -/
def findSplit (m : Mesh P) (h : Nat) : Nat → Nat → Option Nat
  | 0, _ => none
  | k + 1, d => if m.next (m.next d) = h then some d else findSplit m h k (m.next d)

/-- The body of the loop of `vertexCut` (mymeshComp.cpp:177-199). The new facet is a copy of the old. -/
def cutCorner (s : St P) (h : Nat) : Option (St P) :=
  if 3 < s.m.deg h then do
    let g ← findSplit s.m h s.m.darts.card (s.m.next h)
    some { s with
      m := splitFacet s.m h g
      flag := set s.flag s.m.nf (s.flag (s.m.face h))
      rem := set s.rem s.m.nf (s.rem (s.m.face h))
      added := set (set s.added s.m.nd true) (s.m.nd + 1) true
      conq := set s.conq (s.m.vert h) true }
  else some { s with conq := set s.conq (s.m.vert h) true }

/-- The loop of `vertexCut` (mymeshComp.cpp:174-200). -/
def cutLoop (stop : Nat) : Nat → St P → Nat → Option (St P)
  | 0, _, _ => none
  | n + 1, s, h => do
      let s ← cutCorner s h
      if s.m.rot h = stop then some s else cutLoop stop n s (s.m.rot h)

/-- The opposites of the halfedges around a facet whose own facet is not conquered
(mymeshComp.cpp:129-142, 217-232). -/
def frontier (s : St P) (h : Nat) : List Nat :=
  ((around s.m.h h).map s.m.opp).filter (fun d => !(s.flag (s.m.face d)).conquered)

/-- `vertexCut` (mymeshComp.cpp:165-240). -/
def vertexCut (s : St P) (startH : Nat) : Option (St P) := do
  let s ← cutLoop (s.m.opp startH) s.m.darts.card s (s.m.opp startH)
  let hNewFace := s.m.prev startH
  let p := s.m.pos (s.m.vert startH)
  let s := { s with m := eraseCenter s.m startH }
  let s := { s with
    flag := set s.flag (s.m.face hNewFace) .splittable
    rem := set s.rem (s.m.face hNewFace) (some p) }
  some { s with queue := s.queue ++ frontier s hNewFace, nrem := s.nrem + 1 }

/-- `for (hh = h->next(); hh != h; hh = hh->next())` (mymeshComp.cpp:109-117): the first halfedge to a
removable vertex. -/
def firstRemovable (convex : Mesh P → Nat → Bool) (v0 v1 : Nat) (s : St P) (h : Nat) : Option Nat :=
  (around s.m.h h).tail.find? (isRemovable convex v0 v1 s)

/-- The loop over `decimationStep` (mymeshComp.cpp:87-153, mymesh.cpp:126-129). A gate that is no longer a halfedge of the
mesh would be a dangling handle, `none`. -/
def conquest (convex : Mesh P → Nat → Bool) (v0 v1 : Nat) : Nat → St P → Option (St P)
  | 0, _ => none
  | n + 1, s =>
    match s.queue with
    | [] => some s
    | h :: q =>
      if h ∉ s.m.darts then none
      else
        let s := { s with queue := q }
        if (s.flag (s.m.face h)).conquered then conquest convex v0 v1 n s
        else match firstRemovable convex v0 v1 s h with
          | none =>
            let s := { s with
              flag := set s.flag (s.m.face h) .unsplittable
              conq := fun v => s.conq v || ((around s.m.h h).map s.m.vert).contains v }
            conquest convex v0 v1 n { s with queue := s.queue ++ frontier s h }
          | some hh => do
            let s ← vertexCut s hh
            conquest convex v0 v1 n s

/-- `beginDecimationConquest` (mymeshComp.cpp:36-67): all flags reset, one gate. The code takes the
halfedge in the middle of CGAL's list; here it is any. -/
def beginConquest (m : Mesh P) (init : Nat) : St P :=
  ⟨m, fun _ => .unknown, fun _ => none, fun _ => false, fun _ => false, [init], 0⟩

/-! ### Coding one level -/

/-- `pushHehInit` (mymeshUtils.cpp:270-288): circulate around `vh_departureConquest[0]`, whose halfedge is
`hit0`, until the opposite halfedge points to `vh_departureConquest[1]`. -/
def pushHehInit (m : Mesh P) (hit0 v1 : Nat) : Option Nat :=
  (m.ring (m.opp hit0)).find? (fun d => m.vert d == v1)

/-- What is known of the arithmetic of residuals: `getQuantizedPos(removed) - getQuantizedPos(barycenter(h))`
(mymeshComp.cpp:277-278) from the removed position and the positions met around the facet from the gate,
and `getPos(getQuantizedPos(barycenter(h)) + residual)` (mymeshDecomp.cpp:276). -/
structure Geo (P V : Type) where
  residual : P → List P → V
  insert : List P → V → P

variable {V : Type}

/-- The positions met around the facet of `h`, as `barycenter(h)` does (mymeshUtils.cpp:109-124). -/
def facePos (m : Mesh P) (h : Nat) : List P := (around m.h h).map (fun d => m.pos (m.vert d))

/-- The face symbol written for gate `h` (mymeshComp.cpp:277-278, 313-330): nothing for an unsplittable
facet, the residual for a splittable one. -/
def faceSym (geo : Geo P V) (s : St P) (h : Nat) : Option V :=
  if s.flag (s.m.face h) = .splittable then
    (s.rem (s.m.face h)).map (fun p => geo.residual p (facePos s.m h))
  else none

/-- The symbols of a level: `determineResiduals`, `RemovedVertexCodingStep`s, `InsertedEdgeCodingStep`s
(mymeshComp.cpp:246-429) from the departure halfedge. -/
def codeLevel (geo : Geo P V) (n : Nat) (s : St P) (hit0 v1 : Nat) : Option (List (Option V) × List Bool) := do
  let h0 ← pushHehInit s.m hit0 v1
  let gates ← codeFaces s.m.h n [h0] (fun _ => false)
  let (_, es) ← codeEdges s.m.h s.flag s.added n [h0] (fun _ => false)
  some (gates.map (faceSym geo s), es)

/-! ### Decoding one level -/

/-- `insertRemovedVertices` (mymeshDecomp.cpp:241-292). `proc` are the processed flags; the facets created by
`create_center_vertex` are copies of the processed facet. A splittable facet without a residual cannot
occur in the code (every facet has a `residual` field), `none`. -/
def insertLoop (geo : Geo P V) (flag : Nat → Flag) (res : Nat → Option V) :
    Nat → Mesh P → (Nat → Bool) → List Nat → Option (Mesh P)
  | 0, _, _, _ => none
  | _ + 1, m, _, [] => some m
  | n + 1, m, proc, h :: q =>
      if proc (m.face h) then insertLoop geo flag res n m proc q
      else
        let proc := set proc (m.face h) true
        let q := q ++ ((around m.h h).map m.opp).filter (fun d => !proc (m.face d))
        if flag (m.face h) = .splittable then
          match res (m.face h) with
          | none => none
          | some r =>
            let m' := createCenter m h (geo.insert (facePos m h) r)
            insertLoop geo flag res n m' (fun f => proc f || decide (m.nf ≤ f ∧ f < m'.nf)) q
        else insertLoop geo flag res n m proc q

/-- `removeInsertedEdges` (mymeshDecomp.cpp:298-310) over the halfedges in storage order. -/
def removeInsertedEdges (marked : Nat → Bool) (m : Mesh P) (order : List Nat) : Mesh P :=
  (order.filter marked).foldl joinFacet m

/-- One decompression level after its symbols (mymeshDecomp.cpp:57-310). `order` lists the halfedges of a mesh in storage
order. -/
def decodeLevel (geo : Geo P V) (order : Mesh P → List Nat) (n : Nat) (m : Mesh P) (hit0 v1 : Nat)
    (faces : List (Option V)) (edges : List Bool) : Option (Mesh P) := do
  let h0 ← pushHehInit m hit0 v1
  let (_, flag, res, rest) ← decodeFaces m.h n [h0] (fun _ => .unknown) (fun _ => none) faces
  if rest ≠ [] then none
  let (_, marked, rest) ← decodeEdges m.h flag (fun _ => false) n [h0] (fun _ => false) (fun _ => false) edges
  if rest ≠ [] then none
  let m' ← insertLoop geo flag res n m (fun _ => false) [h0]
  some (removeInsertedEdges marked m' (order m'))

end TDP.Codec
