import Verif.Codec.Model
/-!
# Model of the whole compression and decompression of the mesh
(src/PPMC/mymesh.cpp:71-72, 88-99, 119-166, src/PPMC/mymeshComp.cpp:28-31, 139-163, src/PPMC/mymeshIO.cpp:40-45)

`init m` is the halfedge in the middle of CGAL's list (`beginDecimationConquest`), `hit m v` is `v->halfedge()`: both depend
on how CGAL stores the items, and are parameters.
-/
namespace TDP.Codec
open TDP.Traversal

variable {P V : Type}

/-- The symbols of a level: `geometrySym[i]` and `connectFaceSym[i]` (a facet without residual is unsplittable),
`connectEdgeSym[i]`. -/
abbrev LevelSyms (V : Type) := List (Option V) × List Bool

/-- `completeOperation` of the compressor (mymesh.cpp:161-166): decimation conquests until one removes no vertex
(mymeshComp.cpp:139-163), each followed by the coding of its level. The result lists, finest level first, the mesh before
each decimation (kept here to speak about it, the program overwrites it) and the symbols, and the last mesh, which
`writeBaseMesh` writes. -/
def compressLevels (geo : Geo P V) (convex : Mesh P → Nat → Bool) (init : Mesh P → Nat) (hit : Mesh P → Nat → Nat)
    (v0 v1 n : Nat) : Nat → Mesh P → Option (List (Mesh P × LevelSyms V) × Mesh P)
  | 0, _ => none
  | k + 1, m => do
      let s ← conquest convex v0 v1 n (beginConquest m (init m))
      if s.nrem = 0 then some ([], s.m)
      else do
        let l ← codeLevel geo n s (hit s.m v0) v1
        let (ls, b) ← compressLevels geo convex init hit v0 v1 n k s.m
        some ((m, l) :: ls, b)

/-- Successive refinements (mymesh.cpp:93-99, 119-166): `levels` in the order they are stored, coarsest first
(mymeshIO.cpp:40-45). -/
def decompressLevels (geo : Geo P V) (order : Mesh P → List Nat) (hit : Mesh P → Nat → Nat) (v0 v1 n : Nat)
    (levels : List (LevelSyms V)) (m : Mesh P) : Option (Mesh P) :=
  levels.foldlM (fun m l => decodeLevel geo order n m (hit m v0) v1 l.1 l.2) m

end TDP.Codec
