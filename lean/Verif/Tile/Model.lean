import Verif.Boxes.Model
import Verif.Common.Bytes
/-!
# Model of tile files (src/storage/tile.cpp, tile.h; the writer is src/test/compress.cpp:43-63)

Files are lists of bytes; `size_t` and `long` are 8 bytes, `float` 4 bytes, little endian. A coordinate is
any linear order with least and greatest element (the default box, aab.h:51-58) whose values are stored in
4 bytes (`FloatCode`). A field cut off by the end of the file is the outcome `none` (the code would go on
with stale or uninitialised values); a file ending between two records is fine. Statistics, locks and
memory management are not modelled.
-/
namespace TDP.Tile
open TDP.Boxes TDP.Bytes

variable {α : Type} [LinearOrder α] [BoundedOrder α]

/-- `class Voxel` (spatial.h), the parts that are stored: box and core point. -/
structure Voxel (α : Type) where
  box : Box α
  core : Pt α

/-- `class HiMesh_Wrapper` (himesh.h:142-190): `offset`, `data_size`, `id`, `box.box`, `voxels`.
(`box.id` is set to `id`, tile.cpp:112, 144.) -/
structure Wrapper (α : Type) where
  offset : Nat
  dataSize : Nat
  id : Nat
  box : Box α
  voxels : List (Voxel α)

/-- `class Tile` (tile.h:20-25): `box` and `objects`. -/
structure Tile (α : Type) where
  box : Box α
  objects : List (Wrapper α)

/-- `fwrite(p, sizeof(float), 3, fs)`. -/
def putPt (fc : FloatCode α) (p : Pt α) : List Nat :=
  put 4 (fc.toBits (p 0)) ++ put 4 (fc.toBits (p 1)) ++ put 4 (fc.toBits (p 2))

/-- `fread(p, sizeof(float), 3, fs)`. -/
def getPt (fc : FloatCode α) (s : List Nat) : Option (Pt α × List Nat) := do
  let (a, s) ← get 4 s
  let (b, s) ← get 4 s
  let (c, s) ← get 4 s
  pure (pt3 (fc.ofBits a) (fc.ofBits b) (fc.ofBits c), s)

/-- The voxel loop of the writers (tile.cpp:85-89, compress.cpp:51-54). -/
def putVoxel (fc : FloatCode α) (v : Voxel α) : List Nat := putPt fc v.box.min ++ putPt fc v.box.max ++ putPt fc v.core

/-- One turn of the voxel loop of the readers (tile.cpp:116-119, 148-151). -/
def getVoxel (fc : FloatCode α) (s : List Nat) : Option (Voxel α × List Nat) := do
  let (a, s) ← getPt fc s
  let (b, s) ← getPt fc s
  let (c, s) ← getPt fc s
  pure (⟨⟨a, b⟩, c⟩, s)

/-- `for(i<dsize)` reading voxels. -/
def getVoxels (fc : FloatCode α) : Nat → List Nat → Option (List (Voxel α) × List Nat)
  | 0, s => some ([], s)
  | n + 1, s => do
      let (v, s) ← getVoxel fc s
      let (vs, s) ← getVoxels fc n s
      pure (v :: vs, s)

/-- `w->box.box.update(v->box)` for each voxel (tile.cpp:121, 153). -/
def voxelsBox (vs : List (Voxel α)) : Box α := vs.foldl (fun b v => b.addBox v.box) emptyBox

/-- `box.update(w->box.box)` for each object (tile.cpp:124, 156), from the box so far. -/
def tileBox (ws : List (Wrapper α)) : Box α := ws.foldl (fun b w => b.addBox w.box) emptyBox

/-- One record of a metadata file (tile.cpp:81-89). -/
def putMeta (fc : FloatCode α) (w : Wrapper α) : List Nat :=
  put 8 w.offset ++ put 8 w.dataSize ++ put 8 w.voxels.length ++ w.voxels.flatMap (putVoxel fc)

/-- `Tile::persist` (tile.cpp:77-93): the bytes of the metadata file. -/
def persist (fc : FloatCode α) (t : Tile α) : List Nat := t.objects.flatMap (putMeta fc)

/-- The record loop of `Tile::load` (tile.cpp:105-125). `fuel` is more than the number of bytes, which
bounds the number of turns. Reading the first field may fail, which ends the loop. -/
def loadLoop (fc : FloatCode α) (capacity : Nat) : Nat → Nat → List Nat → Option (List (Wrapper α))
  | 0, _, _ => none
  | fuel + 1, index, s =>
      if index < capacity then
        match get 8 s with
        | none => some []
        | some (off, s) => do
            let (dsz, s) ← get 8 s
            let (n, s) ← get 8 s
            let (vs, s) ← getVoxels fc n s
            let ws ← loadLoop fc capacity fuel (index + 1) s
            pure (⟨off, dsz, index, voxelsBox vs, vs⟩ :: ws)
      else some []

/-- The parameter `int capacity` of `load` (tile.cpp:96) receives a `size_t` and is compared with a
`size_t` (line 107): wrap to 32 bits, read as signed, converted back to 64 bits. -/
def effCapacity (c : Nat) : Nat :=
  if c % 2 ^ 32 < 2 ^ 31 then c % 2 ^ 32 else 2 ^ 64 - 2 ^ 32 + c % 2 ^ 32

/-- `Tile::load` (tile.cpp:96-128). -/
def load (fc : FloatCode α) (capacity : Nat) (file : List Nat) : Option (Tile α) :=
  (loadLoop fc (effCapacity capacity) (file.length + 1) 0 file).map (fun ws => ⟨tileBox ws, ws⟩)

/-- One record of a data file as written by `flush_mesh_buffer` (compress.cpp:47-56): the compressed mesh
and its voxels. -/
structure Record (α : Type) where
  data : List Nat
  voxels : List (Voxel α)

/-- compress.cpp:47-56. -/
def putRecord (fc : FloatCode α) (r : Record α) : List Nat :=
  put 8 r.data.length ++ r.data ++ put 8 r.voxels.length ++ r.voxels.flatMap (putVoxel fc)

/-- A data file: the records one after the other. -/
def dataFile (fc : FloatCode α) (rs : List (Record α)) : List Nat := rs.flatMap (putRecord fc)

/-- The record loop of `Tile::parse_raw` (tile.cpp:133-159); `s` is the rest of the file at the file
position, `offset` the program variable. `fseek` beyond the end is allowed, the next read then fails. -/
def parseLoop (fc : FloatCode α) : Nat → Nat → Nat → List Nat → Option (List (Wrapper α))
  | 0, _, _, _ => none
  | fuel + 1, index, offset, s =>
      match get 8 s with
      | none => some []
      | some (dsz, s) => do
          let s := s.drop dsz
          let offset := offset + 8
          let (n, s) ← get 8 s
          let (vs, s) ← getVoxels fc n s
          let ws ← parseLoop fc fuel (index + 1) (offset + (dsz + 8 + 9 * 4 * n)) s
          pure (⟨offset, dsz, index, voxelsBox vs, vs⟩ :: ws)

/-- `Tile::parse_raw` (tile.cpp:131-161). -/
def parseRaw (fc : FloatCode α) (file : List Nat) : Option (Tile α) :=
  (parseLoop fc (file.length + 1) 0 0 file).map (fun ws => ⟨tileBox ws, ws⟩)

/-- The read in `Tile::retrieve_mesh` (tile.cpp:171-175). -/
def retrieve (file : List Nat) (w : Wrapper α) : List Nat := (file.drop w.offset).take w.dataSize

/-- `boost::replace_all(meta_path, ".dt", ".mt")` (tile.cpp:36). -/
def metaPath : List Char → List Char
  | [] => []
  | '.' :: 'd' :: 't' :: s => '.' :: 'm' :: 't' :: metaPath s
  | c :: s => c :: metaPath s

/-- The files by path. -/
abbrev Disk := List Char → Option (List Nat)

/-- The constructor `Tile::Tile(path, capacity)` (tile.cpp:24-45): the tile and the files afterwards;
`none` is `exit` or a broken file. -/
def openTile (fc : FloatCode α) (disk : Disk) (path : List Char) (capacity : Nat) : Option (Tile α × Disk) :=
  match disk path with
  | none => none
  | some dt =>
    match disk (metaPath path) with
    | some mt => (load fc capacity mt).map (fun t => (t, disk))
    | none => (parseRaw fc dt).map (fun t =>
        (t, fun p => if p = metaPath path then some (persist fc t) else disk p))

/-- `Tile::disable_innerpart` (tile.cpp:58-73); `centre lo hi` is `(hi - lo) / 2 + lo`. -/
def disableInner (centre : α → α → α) (t : Tile α) : Tile α :=
  { t with objects := t.objects.map (fun w =>
      if w.voxels.length > 1 then
        { w with voxels := [⟨w.box, fun i => centre (w.box.min i) (w.box.max i)⟩] }
      else w) }

end TDP.Tile
