import Verif.Codec.Props
import Verif.Tile.Props
import Verif.Conc.Compress
/-!
# From the input file of the compression tool to the objects of a tile
(src/test/compress.cpp:43-99, src/spatial/spatial_common.cpp:99-118, src/storage/tile.cpp:24-45, 131-186)

The pieces are modelled elsewhere: the threads of the tool (`Conc.Compress`), the codec (`Codec`), tile files (`Tile`). Here they are
put together: what a worker of the tool writes for one line. Parsing the OFF text of a line is CGAL's; a line is what CGAL reads from it.
-/
namespace TDP.Pipeline
open TDP.Codec TDP.Quant TDP.Tile TDP.Bytes

/-- What a loop bounded by `n` turns computes once the bound is large enough. -/
def Ends {X : Type} (f : Nat → Option X) (x : X) : Prop := ∃ N, ∀ n ≥ N, f n = some x

/-- A line of the input file as read by `get_mesh` (spatial_common.cpp:99-118): the mesh, `halfedges_begin()`, the positions of its
vertices (at least one), and the header computed from them (mymesh.cpp:44-70). -/
structure Input where
  mesh : Mesh P3
  first : Nat
  v : P3
  vs : List P3
  hd : Header

/-- The mesh after `quantizeVertexPositions` (mymesh.cpp:71). -/
def Input.quantised (i : Input) : Mesh P3 :=
  { i.mesh with pos := fun u => quantizeVertex (initCfg i.hd.quantBits i.v i.vs) i.hd.quantBits (i.mesh.pos u) }

/-- What is fixed for a run: the logarithm of the header code, the buffer size, the meaning of float patterns, rounding, the convexity
test, and the storage orders of CGAL in the compressing and in the decoding mesh. -/
structure Setting where
  lg : Nat → Nat
  size : Nat
  value : Nat → ℚ
  F : Fp
  convex : Mesh P3 → Nat → Bool
  enc : Env P3
  dec : Env P3

variable {α : Type} [LinearOrder α] [BoundedOrder α]

/-- The record of a line (compress.cpp:81-86 and 48-55): `get_mesh(line, true)` compresses; a `HiMesh` is opened on the bytes and advanced to
100; `dataOffset` bytes of it are written, that is as many as have been read, and the voxels that `generate_voxels` makes
from the decoded mesh (`vox`, any relation: the sampling is random). -/
def ToolRecord (S : Setting) (vox : Mesh P3 → List (Voxel α) → Prop) (i : Input) (r : Record α) : Prop :=
  ∃ data o o', Ends (fun n => compress S.lg S.size (headerGrid S.value) S.convex S.enc n i.hd i.quantised i.first) data ∧
    openObj S.lg (headerGrid S.value) data = some o ∧
    Ends (fun n => advanceObj S.F (headerGrid S.value) S.dec n 100 o) o' ∧
    r.data = data.take (data.length - o'.rest.length) ∧ vox o'.m r.voxels

/-- The bytes a worker may write for a line. -/
def toolBytes (S : Setting) (fc : FloatCode α) (vox : Mesh P3 → List (Voxel α) → Prop) (i : Input) (bytes : List Nat) : Prop :=
  ∃ r, ToolRecord S vox i r ∧ bytes = putRecord fc r

end TDP.Pipeline
