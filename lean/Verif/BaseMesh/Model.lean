import Verif.Bits.Model
/-!
# Model of the base mesh I/O (src/PPMC/mymeshIO.cpp:146-331)

Vertices are the quantised coordinates returned by `getQuantizedPos`, in iterator order; a face is the
list of its vertex indices (positions in that order) starting at `facet_begin`. The halfedge structure
is not modelled here. `ceil(log(n) / log(2))` is a parameter `lg` of both sides: all that is used is
`n ≤ 2 ^ lg n` and `lg n ≤ 25` (hypothesis `LogOk` of the theorems).
-/
namespace TDP.BaseMesh
open TDP.Bits

abbrev Pt := Nat × Nat × Nat

/-- What `writeBaseMesh` writes: bounding box corner and step (float bit patterns), `i_quantBits`,
`i_nbDecimations`, `i_nbQuantizations` (= `i_curQuantizationId`, mymeshIO.cpp:34), `i_levelNotConvexId`,
the vertices, the indices of `vh_departureConquest[0..1]`, the faces. -/
structure Base where
  bb0 : Nat
  bb1 : Nat
  bb2 : Nat
  step : Nat
  quantBits : Nat
  nbDec : Nat
  nbQuant : Nat
  levelNotConvex : Nat
  verts : List Pt
  dep0 : Nat
  dep1 : Nat
  faces : List (List Nat)

/-- What `readBaseMesh` hands to the polyhedron builder and stores in the mesh object.
`i_levelNotConvexId` gets the raw field (mymeshIO.cpp:276). -/
structure Decoded where
  bb0 : Nat
  bb1 : Nat
  bb2 : Nat
  step : Nat
  quantBits : Nat
  nbDec : Nat
  nbQuant : Nat
  levelNotConvex : Nat
  verts : List Pt
  faces : List (List Nat)
deriving Repr, DecidableEq

/-- The three `writeBits` calls for one vertex (mymeshIO.cpp:196-201, 216-220). -/
def writeVertex (b : Buf) (pos : Pos) (w : Nat) (p : Pt) : Option (Buf × Pos) :=
  writeFields b pos [(p.1, w), (p.2.1, w), (p.2.2, w)]

/-- `vit->setId(id)` (mymeshIO.cpp:202, 222). -/
def setId (ids : Nat → Nat) (v id : Nat) : Nat → Nat := fun x => if x = v then id else ids x

/-- The loop over the other vertices (mymeshIO.cpp:206-223); `todo` are the indices still to visit. -/
def writeOthers (m : Base) (w : Nat) : Buf → Pos → (Nat → Nat) → Nat → List Nat →
    Option (Buf × Pos × (Nat → Nat))
  | b, pos, ids, _, [] => some (b, pos, ids)
  | b, pos, ids, id, v :: todo =>
      if v = m.dep0 ∨ v = m.dep1 then writeOthers m w b pos ids id todo
      else do
        let p ← m.verts[v]?
        let (b, pos) ← writeVertex b pos w p
        writeOthers m w b pos (setId ids v id) (id + 1) todo

/-- The loop over the faces (mymeshIO.cpp:227-244). `i_faceDegree - 3` is unsigned; it wraps for
degrees below 3. `NB_BITS_FACE_DEGREE_BASE_MESH = 3` (configuration.h). -/
def writeFaces (nbits : Nat) (ids : Nat → Nat) : Buf → Pos → List (List Nat) → Option (Buf × Pos)
  | b, pos, [] => some (b, pos)
  | b, pos, f :: fs => do
      let (b, pos) ← writeBits b pos ((f.length + 4294967296 - 3) % 4294967296) 3
      let (b, pos) ← writeFields b pos (f.map (fun v => (ids v, nbits)))
      writeFaces nbits ids b pos fs

/-- `writeBaseMesh` (mymeshIO.cpp:147-248), from `dataOffset = off`; returns the buffer and the final
`dataOffset`. -/
def writeBaseMesh (lg : Nat → Nat) (m : Base) (b : Buf) (off : Nat) : Option (Buf × Nat) := do
  let (b, off) ← writeFloat b off m.bb0
  let (b, off) ← writeFloat b off m.bb1
  let (b, off) ← writeFloat b off m.bb2
  let (b, off) ← writeFloat b off m.step
  let nbits := lg m.verts.length
  let pos : Pos := ⟨0, off + 1⟩
  let (b, pos) ← writeFields b pos
    [(m.quantBits - 1, 4), (m.nbDec, 6), (m.nbQuant, 6), (m.nbDec - m.levelNotConvex, 6),
     (m.verts.length, 16), (m.faces.length, 16)]
  let w := m.quantBits - m.nbQuant
  let p0 ← m.verts[m.dep0]?
  let (b, pos) ← writeVertex b pos w p0
  let ids := setId (fun _ => 0) m.dep0 0
  let p1 ← m.verts[m.dep1]?
  let (b, pos) ← writeVertex b pos w p1
  let ids := setId ids m.dep1 1
  let (b, pos, ids) ← writeOthers m w b pos ids 2 (List.range m.verts.length)
  let (b, pos) ← writeFaces nbits ids b pos m.faces
  some (b, if pos.bit = 0 then pos.off - 1 else pos.off)

/-- The vertex loop (mymeshIO.cpp:293-302), without the dequantisation `getPos`. -/
def readVerts (b : Buf) (w : Nat) : Pos → Nat → Option (List Pt × Pos)
  | pos, 0 => some ([], pos)
  | pos, n + 1 => do
      let (x, pos) ← readBits b pos w
      let (y, pos) ← readBits b pos w
      let (z, pos) ← readBits b pos w
      let (ps, pos) ← readVerts b w pos n
      some ((x, y, z) :: ps, pos)

/-- The face loop (mymeshIO.cpp:305-316). -/
def readFaces (b : Buf) (nbits : Nat) : Pos → Nat → Option (List (List Nat) × Pos)
  | pos, 0 => some ([], pos)
  | pos, n + 1 => do
      let (d, pos) ← readBits b pos 3
      let (f, pos) ← readFields b pos (List.replicate (d + 3) nbits)
      let (fs, pos) ← readFaces b nbits pos n
      some (f :: fs, pos)

/-- `readBaseMesh` (mymeshIO.cpp:252-331), from `dataOffset = off`. -/
def readBaseMesh (lg : Nat → Nat) (b : Buf) (off : Nat) : Option (Decoded × Nat) := do
  let (bb0, off) ← readFloat b off
  let (bb1, off) ← readFloat b off
  let (bb2, off) ← readFloat b off
  let (step, off) ← readFloat b off
  let pos : Pos := ⟨0, off + 1⟩
  let (q, pos) ← readBits b pos 4
  let (nbDec, pos) ← readBits b pos 6
  let (nbQuant, pos) ← readBits b pos 6
  let (lnc, pos) ← readBits b pos 6
  let (nv, pos) ← readBits b pos 16
  let (nf, pos) ← readBits b pos 16
  let nbits := lg nv
  let (verts, pos) ← readVerts b (q + 1 - nbQuant) pos nv
  let (faces, pos) ← readFaces b nbits pos nf
  some (⟨bb0, bb1, bb2, step, q + 1, nbDec, nbQuant, lnc, verts, faces⟩,
    if pos.bit = 0 then pos.off - 1 else pos.off)

end TDP.BaseMesh
