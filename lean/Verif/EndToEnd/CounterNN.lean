import Verif.EndToEnd.WithinEx
/-!
# C64, C68: runs of the joins that give the wrong answer

Complete runs on two tiles, with boxes that are the hulls of the segments.
-/
namespace TDP.EndToEnd
open TDP.Boxes TDP.Join TDP.Kernels TDP.Gpu

def half (a b : ℚ) : ℚ := (a + b) / 2

/-! ## C68: an object far from everything is taken for near -/
namespace ExFar
def cub (l h : ℚ) : Box ℚ := ⟨fun _ => l, fun _ => h⟩
def diag (l h : ℚ) : Seg := ⟨fun _ => l, fun _ => h⟩
/-- An object with one voxel. -/
def mkO (ptr : Nat) (id : Int) (b : Box ℚ) (ss : List Seg) : Object Seg :=
  ⟨ptr, ⟨id, b, [⟨ptr, b⟩]⟩, [b.min], fun _ => ss⟩
def sa : List Seg := [diag 0 1]
def sx : List Seg := [diag 2 3]
def sf : List Seg := [⟨pt3 4 20 20, pt3 20 4 20⟩, ⟨pt3 20 4 20, pt3 20 20 4⟩]
/-- The first tile: `oa` is near to both objects of the second one, `off` is near to none. -/
def oa : Object Seg := mkO 1 0 (cub 0 1) sa
def off : Object Seg := mkO 2 1 (cub 4 20) sf
def ox : Object Seg := mkO 3 0 (cub 2 3) sx
def oy : Object Seg := mkO 4 1 (cub 2 3) sx
def tile2 (i : Int) : Wrapper := ⟨i, cub 2 3, [⟨if i = 1 then 4 else 3, cub 2 3⟩]⟩
def heap (_ : Nat) (v : Voxel) : List Seg := if v.addr = 1 then sa else if v.addr = 2 then sf else sx

def treeO : Option (Octree.Node ℚ) := Octree.build half 400 10 ox.obj [oy.obj]
theorem tree_some : treeO.isSome = true := by decide +kernel
def tree : Octree.Node ℚ := treeO.get tree_some
def idsA := Octree.queryWithin Fp.exact oa.obj 10 tree
def idsF := Octree.queryWithin Fp.exact off.obj 10 tree
def start : List Entry := [mbbWithin Fp.exact 10 tile2 oa.w idsA, mbbWithin Fp.exact 10 tile2 off.w idsF]
def data (i : Nat) : ℚ :=
  (fillBuf 6 (fun v => (heap 100 v).flatMap Seg.floats) (voxelMap (fun v => (heap 100 v).length) (flatPairs start)).1 i).getD 0
def os : Nat → Nat := osArr (voxelMap (fun v => (heap 100 v).length) (flatPairs start)).1 (flatPairs start)
def ws : List (Nat × WithTop ℚ) := (distUnits (cpuDist data os) (flatPairs start).length 1).flatten
def d : Nat → WithTop ℚ := runWrites (fun _ => 0) ws
def final : List Entry := wiStep true 10 ⟨fun v => (heap 100 v).length, fun _ _ => 0⟩ (fun i => (d i).untopD 0) start


/-- C68 (counterexample): the object is near to nothing, and leaves the join as if it were. Squared distances; the limit is 10. -/
theorem C68_counterexample_removed :
    (∀ s ∈ off.elems 100, ∀ t ∈ ox.elems 100 ++ oy.elems 100, (450 : WithTop ℚ) < segD s t) ∧
    ∃ start final, WithinJoin (.cpu 1) half heap 10 [oa, off] ox [oy] tile2 [100] start final ∧
      start.map Entry.mesh = [oa.w, off.w] ∧ final = [] := by
  refine ⟨?_, start, final, ⟨10, tree, (Option.some_get tree_some).symm, ?_, ?_⟩, rfl, ?_⟩
  · have key : ∀ s ∈ sf, ∀ t ∈ sx ++ sx, (450 : WithTop ℚ) < segD s t := by
      unfold sf sx
      simp only [List.mem_cons, List.not_mem_nil, or_false, forall_eq_or_imp, forall_eq, List.cons_append, List.nil_append]
      decide +kernel
    exact key
  · refine .keep (ids := idsA) ⟨List.Perm.refl _, ?_⟩ ?_ (.keep (ids := idsF) ⟨List.Perm.refl _, ?_⟩ ?_ .nil)
    · decide +kernel
    · refine List.length_pos_iff.1 ?_
      decide +kernel
    · decide +kernel
    · refine List.length_pos_iff.1 ?_
      decide +kernel
  · refine .cons ⟨d, fun _ _ => ⟨_, fun _ => 0, List.Perm.refl _, ws, interleaving_sequential _, rfl⟩, rfl⟩ (.nil _)
  · refine List.length_eq_zero_iff.1 ?_
    decide +kernel
end ExFar

/-! ## C68: an object near to another one is not found -/
namespace ExMissed
open ExFar (cub diag mkO sa sx)
def sy : List Seg := [⟨pt3 (5/2) 20 20, pt3 20 (5/2) 20⟩, ⟨pt3 20 (5/2) 20, pt3 20 20 (5/2)⟩]
def sf : List Seg := [diag (-1/2) (1/2)]
/-- The first tile: both are near to `ox` only; `oa` has also `oy` as candidate. -/
def oa : Object Seg := mkO 1 0 (cub 0 1) sa
def onr : Object Seg := mkO 2 1 (cub (-1/2) (1/2)) sf
def ox : Object Seg := mkO 3 0 (cub 2 3) sx
def oy : Object Seg := mkO 4 1 (cub (5/2) 20) sy
def tile2 (i : Int) : Wrapper := if i = 1 then oy.w else ⟨i, cub 2 3, [⟨3, cub 2 3⟩]⟩
def heap (_ : Nat) (v : Voxel) : List Seg := if v.addr = 1 then sa else if v.addr = 2 then sf else if v.addr = 3 then sx else sy

def treeO : Option (Octree.Node ℚ) := Octree.build half 400 10 ox.obj [oy.obj]
theorem tree_some : treeO.isSome = true := by decide +kernel
def tree : Octree.Node ℚ := treeO.get tree_some
def idsA := Octree.queryWithin Fp.exact oa.obj 10 tree
def idsF := Octree.queryWithin Fp.exact onr.obj 10 tree
def start : List Entry := [mbbWithin Fp.exact 10 tile2 oa.w idsA, mbbWithin Fp.exact 10 tile2 onr.w idsF]
def data (i : Nat) : ℚ :=
  (fillBuf 6 (fun v => (heap 100 v).flatMap Seg.floats) (voxelMap (fun v => (heap 100 v).length) (flatPairs start)).1 i).getD 0
def os : Nat → Nat := osArr (voxelMap (fun v => (heap 100 v).length) (flatPairs start)).1 (flatPairs start)
def ws : List (Nat × WithTop ℚ) := (distUnits (cpuDist data os) (flatPairs start).length 1).flatten
def d : Nat → WithTop ℚ := runWrites (fun _ => 0) ws
def final : List Entry := wiStep true 10 ⟨fun v => (heap 100 v).length, fun _ _ => 0⟩ (fun i => (d i).untopD 0) start

/-- C68 (counterexample): the object is within the limit of another one (27/4 < 10), and is left as if it were not. -/
theorem C68_counterexample_missed :
    (∀ s ∈ onr.elems 100, ∀ t ∈ ox.elems 100, segD s t = ((27 / 4 : ℚ) : WithTop ℚ)) ∧
    ∃ start final, WithinJoin (.cpu 1) half heap 10 [oa, onr] ox [oy] tile2 [100] start final ∧
      final.map (fun e => e.mesh.id) = [onr.w.id] := by
  refine ⟨?_, start, final, ⟨10, tree, (Option.some_get tree_some).symm, ?_, ?_⟩, ?_⟩
  · have key : ∀ s ∈ sf, ∀ t ∈ sx, segD s t = ((27 / 4 : ℚ) : WithTop ℚ) := by
      unfold sf sx
      simp only [List.mem_cons, List.not_mem_nil, or_false, forall_eq]
      decide +kernel
    exact key
  · refine .keep (ids := idsA) ⟨List.Perm.refl _, ?_⟩ ?_ (.keep (ids := idsF) ⟨List.Perm.refl _, ?_⟩ ?_ .nil)
    · decide +kernel
    · refine List.length_pos_iff.1 ?_
      decide +kernel
    · decide +kernel
    · refine List.length_pos_iff.1 ?_
      decide +kernel
  · refine .cons ⟨d, fun _ _ => ⟨_, fun _ => 0, List.Perm.refl _, ws, interleaving_sequential _, rfl⟩, rfl⟩ (.nil _)
  · decide +kernel
end ExMissed

/-! ## C64: an object inside a hollow one -/
namespace ExShell
open ExFar (cub diag mkO)
/-- Edges of the cube `[-10,10]^3`, enough to have it as their hull. -/
def sh : List Seg := [⟨pt3 (-10) (-10) (-10), pt3 10 (-10) (-10)⟩, ⟨pt3 10 10 10, pt3 (-10) 10 10⟩]
def oq : Object Seg := mkO 1 0 (cub (-1) 1) [diag (-1) 1]
/-- Around `oq`. -/
def osh : Object Seg := mkO 2 0 (cub (-10) 10) sh
/-- Next to `oq`. -/
def onb : Object Seg := mkO 3 1 (cub 2 3) [diag 2 3]
def tile2 (i : Int) : Wrapper := if i = 1 then onb.w else ⟨i, cub (-10) 10, [⟨2, cub (-10) 10⟩]⟩
def heap (_ : Nat) (v : Voxel) : List Seg := if v.addr = 1 then [diag (-1) 1] else if v.addr = 2 then sh else [diag 2 3]
def treeO : Option (Octree.Node ℚ) := Octree.build half 400 10 osh.obj [onb.obj]
theorem tree_some : treeO.isSome = true := by decide +kernel
def tree : Octree.Node ℚ := treeO.get tree_some
def ids := (Octree.queryNN Fp.exact oq.obj tree ([], none)).1
def start : List Entry := [mbbNN Fp.exact tile2 oq.w ids]

def final : NNState := nnStep true ⟨fun v => (heap 100 v).length, fun _ _ => 0⟩ (fun _ => 0) (dropDecided ⟨start, [], 0⟩)

/-- C64 (counterexample): `onb` is at squared distance 3 and `osh` at more than 160, but the boxes of `oq` and `osh` have the same centre, so
"at most 0" is taken for their distance; `osh` is the answer. -/
theorem C64_counterexample :
    (∀ s ∈ oq.elems 100, ∀ t ∈ onb.elems 100, segD s t = ((3 : ℚ) : WithTop ℚ)) ∧
    (∀ s ∈ oq.elems 100, ∀ t ∈ osh.elems 100, (160 : WithTop ℚ) < segD s t) ∧
    ∃ final, NNJoin (.cpu 1) half heap [oq] osh [onb] tile2 [100] final ∧
      final.opened.length = 0 ∧ final.decided.map (fun e => (e.mesh.id, e.cands.map (fun c => c.mesh.id))) = [(oq.w.id, [osh.w.id])] := by
  refine ⟨?_, ?_, final, ⟨10, tree, start, (Option.some_get tree_some).symm, ?_, ?_⟩, ?_, ?_⟩
  · have key : ∀ s ∈ [diag (-1) 1], ∀ t ∈ [diag 2 3], segD s t = ((3 : ℚ) : WithTop ℚ) := by
      simp only [List.mem_cons, List.not_mem_nil, or_false, forall_eq]
      decide +kernel
    exact key
  · have key : ∀ s ∈ [diag (-1) 1], ∀ t ∈ sh, (160 : WithTop ℚ) < segD s t := by
      unfold sh
      simp only [List.mem_cons, List.not_mem_nil, or_false, forall_eq_or_imp, forall_eq]
      decide +kernel
    exact key
  · refine .keep (ids := ids) ⟨List.Perm.refl _, ?_⟩ ?_ .nil
    · decide +kernel
    · refine List.length_pos_iff.1 ?_
      decide +kernel
  · refine .cons ⟨fun _ => 0, fun h => ?_, rfl⟩ (.nil _)
    exact absurd (by decide +kernel) h
  · decide +kernel
  · decide +kernel
end ExShell
end TDP.EndToEnd
