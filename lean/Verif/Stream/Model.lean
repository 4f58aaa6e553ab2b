import Verif.BaseMesh.Model
import Verif.Blocks.Model
/-!
# Model of the whole compressed object (src/PPMC/mymeshIO.cpp:30-56, mymeshDecomp.cpp:29-51)

The range coder writes byte after byte behind the base mesh (`p_data[dataOffset++]`), which is list
concatenation here; the capacity of the compression buffer for those bytes is not checked by the code
and not modelled.
-/
namespace TDP.Stream
open TDP.Bits TDP.BaseMesh TDP.Blocks

/-- What one decimation level stores: per visited face the residual if it is split
(`connectFaceSym[i]`, `geometrySym[i]`), and the inserted-edge bits (`connectEdgeSym[i]`). -/
structure Level where
  faces : List (Option Vec)
  edges : List Nat

/-- `connectFaceSym`: 1 for a split face. -/
def conn (l : Level) : List Nat := l.faces.map (fun f => match f with | some _ => 1 | none => 0)
/-- `geometrySym`: the residuals of the split faces. -/
def geom (l : Level) : List Vec := l.faces.filterMap id

/-- The loop of `writeCompressedData` (mymeshIO.cpp:40-45); `levels` in the order of the loop, i.e.
from `i_curDecimationId` down to 0, coarsest first. -/
def writeLevels : List Level → Option (List Nat)
  | [] => some []
  | l :: ls => do
      let a ← encodeRemovedVertices (conn l) (geom l)
      let b ← encodeInsertedEdges l.edges
      let r ← writeLevels ls
      some (a ++ (b ++ r))

/-- `writeCompressedData` (mymeshIO.cpp:30-46) into a zero-filled buffer of `size` bytes:
`p_data[0 .. dataOffset)`. `m.nbDec` is set to the number of levels (line 33). -/
def writeCompressedData (lg : Nat → Nat) (size : Nat) (m : Base) (levels : List Level) :
    Option (List Nat) := do
  let (b, e) ← writeBaseMesh lg { m with nbDec := levels.length } (Buf.zero size) 0
  let r ← writeLevels levels
  some ((List.range e).map b.mem ++ r)

/-- The bytes handed to the decompressor (mymesh.cpp:76-81). -/
def toBuf (data : List Nat) : Buf := ⟨fun i => data.getD i 0, data.length⟩

/-- One refinement: `startNextDecompresssionOp` (mymeshDecomp.cpp:47-50) and the steps it triggers,
for a traversal that visits `c.1` faces and reads `c.2` edge symbols. -/
def readLevel (c : Nat × Nat) (data : List Nat) : Option (Level × List Nat) := do
  let (fs, data) ← decodeRemovedVertices c.1 data
  let (es, data) ← decodeInsertedEdges c.2 data
  some (⟨fs, es⟩, data)

/-- Successive refinements. -/
def readLevels : List (Nat × Nat) → List Nat → Option (List Level × List Nat)
  | [], data => some ([], data)
  | c :: cs, data => do
      let (l, data) ← readLevel c data
      let (ls, data) ← readLevels cs data
      some (l :: ls, data)

/-- `readCompressedData` (mymeshIO.cpp:52-56) followed by the refinements `cs`. The third component is
the final `dataOffset`. -/
def readCompressedData (lg : Nat → Nat) (data : List Nat) (cs : List (Nat × Nat)) :
    Option (Decoded × List Level × Nat) := do
  let (d, e) ← readBaseMesh lg (toBuf data) 0
  let (ls, rest) ← readLevels cs (data.drop e)
  some (d, ls, data.length - rest.length)

end TDP.Stream
