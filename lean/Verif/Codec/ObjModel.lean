import Verif.Codec.AllModel
import Verif.Codec.BuildModel
import Verif.Stream.Model
import Verif.Lod.Model
/-!
# Model of the whole codec: from a polyhedron to the compressed bytes and back
(src/PPMC/mymesh.cpp:28-105, 119-166, src/PPMC/mymeshIO.cpp:30-56, src/PPMC/mymeshDecomp.cpp:29-235, 313-335)

The decoder asks the range coder for one symbol at a time, in the course of its traversals.
-/
namespace TDP.Codec
open TDP.Traversal TDP.Blocks TDP.BaseMesh TDP.RangeCoder TDP.QsModel TDP.Stream

variable {P : Type}

/-! ### Traversals that read their symbols from a reader -/

section Readers
variable {D F : Type} [DecidableEq D] [DecidableEq F] {R S : Type}

/-- The loop of `undecimationStep` (mymeshDecomp.cpp:88-126); `read` decodes one face symbol. -/
def readFacesLoop (m : HMesh D F) (read : R → Option (Option S × R)) : Nat → List D → (F → Flag) → (F → Option S) → R →
    Option (List D × (F → Flag) × (F → Option S) × R)
  | 0, _, _, _, _ => none
  | _ + 1, [], flag, res, st => some ([], flag, res, st)
  | n + 1, h :: q, flag, res, st =>
      if (flag (m.face h)).conquered then readFacesLoop m read n q flag res st
      else do
        let (s, st) ← read st
        let pushed := ((around m h).map m.opp).filter (fun d => !(flag (m.face d)).conquered)
        let r ← readFacesLoop m read n (q ++ pushed) (set flag (m.face h) (Flag.ofSym s)) (set res (m.face h) s) st
        some (h :: r.1, r.2)

/-- The loop over `InsertedEdgeDecodingStep` (mymeshDecomp.cpp:160-207); `read` decodes one edge symbol. -/
def readEdgesLoop (m : HMesh D F) (read : R → Option (Bool × R)) (flag : F → Flag) (isNew : D → Bool) :
    Nat → List D → (D → Bool) → (D → Bool) → R → Option (List D × (D → Bool) × R)
  | 0, _, _, _, _ => none
  | _ + 1, [], _, marked, st => some ([], marked, st)
  | n + 1, h :: q, proc, marked, st =>
      if proc h then readEdgesLoop m read flag isNew n q proc marked st
      else
        let proc := set (set proc h true) (m.opp h) true
        let pushed := (leaving m h).filter (fun d => !proc d && !isNew d)
        if flag (m.face h) == .splittable || flag (m.face (m.opp h)) == .splittable then do
          let (s, st) ← read st
          let r ← readEdgesLoop m read flag isNew n (q ++ pushed) proc (if s then set marked h true else marked) st
          some (h :: r.1, r.2)
        else do
          let r ← readEdgesLoop m read flag isNew n (q ++ pushed) proc marked st
          some (h :: r.1, r.2)

end Readers

/-- Decoding the symbol of a face and, if it is split, its residual (mymeshDecomp.cpp:101-107, 121-125, 313-335). -/
def readFaceSym (mn : Int) (st : Dec × QS × QS) : Option (Option Vec × (Dec × QS × QS)) := do
  let (s, d, mc) ← decSym st.1 st.2.1 10
  if s = 1 then do
    let (v, d, mg) ← decVec d st.2.2 mn
    some (some v, d, mc, mg)
  else some (none, d, mc, st.2.2)

/-- Decoding the symbol of an edge (mymeshDecomp.cpp:191-203). -/
def readEdgeSym (st : Dec × QS) : Option (Bool × (Dec × QS)) := do
  let (s, d, m) ← decSym st.1 st.2 10
  some (decide (s ≠ 0), d, m)

/-! ### Geometry -/

/-- What `getQuantizedPos`, `getPos` (mymesh.cpp:246-262) and `barycenter` (mymeshUtils.cpp:109-124) do with the
positions, whatever arithmetic they use. -/
structure Grid (P : Type) where
  quant : P → Vec
  dequant : Vec → P
  bary : List P → P

/-- The residual of a removed vertex (mymeshComp.cpp:277-278) and the position of an inserted one (mymeshDecomp.cpp:276). -/
def Grid.geo (g : Grid P) : Geo P Vec where
  residual p l := ⟨(g.quant p).x - (g.quant (g.bary l)).x, (g.quant p).y - (g.quant (g.bary l)).y,
    (g.quant p).z - (g.quant (g.bary l)).z⟩
  insert l r := g.dequant ⟨(g.quant (g.bary l)).x + r.x, (g.quant (g.bary l)).y + r.y, (g.quant (g.bary l)).z + r.z⟩

/-- `bbMin`, `f_quantStep` (as float bit patterns) and `i_quantBits`: what the arithmetic depends on. -/
structure Header where
  bb0 : Nat
  bb1 : Nat
  bb2 : Nat
  step : Nat
  quantBits : Nat

/-- A quantised position as the unsigned numbers written (mymeshIO.cpp:195-201). -/
def toPt (v : Vec) : Pt := (v.x.toNat, v.y.toNat, v.z.toNat)
/-- `PointInt posInt(p[0], p[1], p[2])` (mymeshIO.cpp:299). -/
def ofPt (p : Pt) : Vec := ⟨p.1, p.2.1, p.2.2⟩

/-- How CGAL stores a polyhedron: the halfedge in the middle of the list, `v->halfedge()`, the halfedges, the vertices
and `facet_begin()` of the facets in iterator order. -/
structure Env (P : Type) where
  init : Mesh P → Nat
  hit : Mesh P → Nat → Nat
  order : Mesh P → List Nat
  vorder : Mesh P → List Nat
  gates : Mesh P → List Nat

/-! ### Compression -/

/-- A level as `writeCompressedData` sees it. -/
def toLevel (l : LevelSyms Vec) : Level := ⟨l.1, l.2.map (fun b => if b then 1 else 0)⟩

/-- What `writeBaseMesh` (mymeshIO.cpp:147-249) reads from the mesh object. No quantisation level and no
`i_levelNotConvexId` is ever set by the program (mymesh.cpp:35-36), both are 0. -/
def baseOf (hd : Header) (grid : Grid P) (env : Env P) (v0 v1 : Nat) (b : Mesh P) : Base where
  bb0 := hd.bb0
  bb1 := hd.bb1
  bb2 := hd.bb2
  step := hd.step
  quantBits := hd.quantBits
  nbDec := 0
  nbQuant := 0
  levelNotConvex := 0
  verts := (env.vorder b).map (fun v => toPt (grid.quant (b.pos v)))
  dep0 := (env.vorder b).idxOf v0
  dep1 := (env.vorder b).idxOf v1
  faces := faceLists b (env.gates b) (fun v => (env.vorder b).idxOf v)

/-- The compressing `MyMesh` (mymesh.cpp:71-72) and `completeOperation` (mymesh.cpp:161-166) after the positions have
been quantised: the bytes. `first` is `halfedges_begin()`, `n` bounds the loops. -/
def compress (lg : Nat → Nat) (size : Nat) (grid : Header → Grid P) (convex : Mesh P → Nat → Bool) (env : Env P) (n : Nat)
    (hd : Header) (m : Mesh P) (first : Nat) : Option (List Nat) := do
  let v0 := m.src first
  let v1 := m.vert first
  let (ls, b) ← compressLevels (grid hd).geo convex env.init env.hit v0 v1 n n m
  writeCompressedData lg size (baseOf hd (grid hd) env v0 v1 b) ((ls.map (·.2)).reverse.map toLevel)

/-! ### Decompression -/

/-- One refinement (mymeshDecomp.cpp:29-310) from the bytes at the current offset. -/
def refine (geo : Geo P Vec) (env : Env P) (n : Nat) (v0 v1 : Nat) (m : Mesh P) (data : List Nat) :
    Option (Mesh P × List Nat) := do
  let d ← startDecoding data
  let h0 ← pushHehInit m (env.hit m v0) v1
  let (m16, d) ← decodeShort d
  let (range, d) ← decodeShort d
  let mg ← initqsmodel range 18 (1 <<< 17) none false
  let mc ← initqsmodel 2 10 (1 <<< 9) none false
  let (_, flag, res, d, _, _) ← readFacesLoop m.h (readFaceSym (fromU16 m16)) n [h0] (fun _ => .unknown) (fun _ => none) (d, mc, mg)
  let d ← doneDecoding d
  let mc ← initqsmodel 2 10 (1 <<< 9) none false
  let d ← startDecoding d.inp
  let (_, marked, d, _) ← readEdgesLoop m.h readEdgeSym flag (fun _ => false) n [h0] (fun _ => false) (fun _ => false) (d, mc)
  let d ← doneDecoding d
  let m' ← insertLoop geo flag res n m (fun _ => false) [h0]
  some (removeInsertedEdges marked m' (env.order m'), d.inp)

/-- `k` refinements. -/
def refines (geo : Geo P Vec) (env : Env P) (n : Nat) (v0 v1 : Nat) : Nat → Mesh P → List Nat → Option (Mesh P × List Nat)
  | 0, m, data => some (m, data)
  | k + 1, m, data => do
      let (m, data) ← refine geo env n v0 v1 m data
      refines geo env n v0 v1 k m data

/-- What a decompressing `MyMesh` holds: the polyhedron, the header, `i_nbDecimations`, the bytes from `dataOffset` on, and the
state of the level-of-detail control. -/
structure Obj (P : Type) where
  m : Mesh P
  hd : Header
  nbDec : Nat
  rest : List Nat
  lod : Lod.St

/-- The decompressing `MyMesh` (mymesh.cpp:73-99, mymeshIO.cpp:251-322): read and build the base mesh. The departure vertices
are the first two. A file with `i_levelNotConvexId < i_nbDecimations` would be partly decoded here (mymesh.cpp:90-96); the
compressor never writes one, `none`. -/
def openObj [Inhabited P] (lg : Nat → Nat) (grid : Header → Grid P) (data : List Nat) : Option (Obj P) := do
  let (d, e) ← readBaseMesh lg (toBuf data) 0
  let hd : Header := ⟨d.bb0, d.bb1, d.bb2, d.step, d.quantBits⟩
  let m ← buildMesh d.faces (d.verts.map (fun p => (grid hd).dequant (ofPt p)))
  if d.levelNotConvex < d.nbDec then none else some ⟨m, hd, d.nbDec, data.drop e, Lod.fresh⟩

/-- `completeOperation` of the decompressor (mymesh.cpp:119-166, mymeshDecomp.cpp:29-51): as `Lod.complete`, with the
refinements. -/
def completeObj (F : Fp) (grid : Header → Grid P) (env : Env P) (n : Nat) (o : Obj P) : Option (Obj P) :=
  if Lod.reached F o.nbDec o.lod.curOp o.lod.pct then some o
  else if o.lod.curOp < o.nbDec then
    match refine (grid o.hd).geo env n 0 1 o.m o.rest with
    | none => none
    | some (m, rest) => completeObj F grid env n ⟨m, o.hd, o.nbDec, rest, ⟨o.lod.curOp + 1, o.lod.pct⟩⟩
  else none
termination_by o.nbDec - o.lod.curOp

/-- `HiMesh::advance_to` (himesh.cpp:329-336). -/
def advanceObj (F : Fp) (grid : Header → Grid P) (env : Env P) (n : Nat) (lod : Int) (o : Obj P) : Option (Obj P) :=
  if o.lod.pct ≥ Lod.toUnsigned lod then some o
  else completeObj F grid env n { o with lod := ⟨o.lod.curOp, Lod.toUnsigned lod⟩ }

/-- A history of requests. -/
def runObj (F : Fp) (grid : Header → Grid P) (env : Env P) (n : Nat) : List Int → Obj P → Option (Obj P)
  | [], o => some o
  | p :: ps, o => do runObj F grid env n ps (← advanceObj F grid env n p o)

/-- Reading an object and `k` refinements. -/
def decompress [Inhabited P] (lg : Nat → Nat) (grid : Header → Grid P) (env : Env P) (n k : Nat) (data : List Nat) :
    Option (Mesh P × Nat × List Nat) := do
  let o ← openObj lg grid data
  let (m, rest) ← refines (grid o.hd).geo env n 0 1 k o.m o.rest
  some (m, o.nbDec, rest)

end TDP.Codec
