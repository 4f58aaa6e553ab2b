import Verif.SortPart.Props
/-!
# C26: the sizes kept in the nodes of a sort partition (index.h:66-84)
-/
namespace TDP.SortPart
open TDP.Boxes TDP.Octree

variable {α : Type} [LinearOrder α] [BoundedOrder α]

theorem fromKids_size {C : Type} (cb : C → Box α) (cs : C → Nat) (kids : List C) :
    (fromKids cb cs kids).size = 1 + ((fromKids cb cs kids).kids.map cs).sum := by
  rw [fromKids_kids]
  unfold fromKids
  rw [foldl_size]; rfl

/-- **C26 (sizes).** The size of every node is one more than what is under it: for a leaf the sizes of its objects, for an inner node the sizes
of its children. -/
theorem C26_sizes (sort : Fin 3 → List (Obj α) → List (Obj α)) (numTiles r : Nat) (objs : List (Obj α)) :
    let t := build sort numTiles r objs
    t.size = 1 + (t.kids.map (·.size)).sum ∧ ∀ x ∈ t.kids, x.size = 1 + (x.kids.map (·.size)).sum ∧
      ∀ y ∈ x.kids, y.size = 1 + (y.kids.map (·.size)).sum ∧ ∀ l ∈ y.kids, l.size = 1 + (l.objs.map (·.size)).sum := by
  dsimp only
  rw [build_eq]
  refine ⟨fromKids_size _ _ _, ?_⟩
  intro x hx
  rw [fromKids_kids] at hx
  obtain ⟨gx, -, rfl⟩ := List.mem_map.1 hx
  rw [mkX_eq]
  refine ⟨fromKids_size _ _ _, ?_⟩
  intro y hy
  rw [fromKids_kids] at hy
  obtain ⟨gy, -, rfl⟩ := List.mem_map.1 hy
  rw [mkY_eq]
  refine ⟨fromKids_size _ _ _, ?_⟩
  intro l hl
  rw [fromKids_kids] at hl
  obtain ⟨gl, -, rfl⟩ := List.mem_map.1 hl
  obtain ⟨h1, h2, -⟩ := mkLeaf_spec gl
  rw [h1]; exact h2

/-- Eight objects in eight leaves: size 8 for the objects, 15 for the nodes. -/
example : (build (fun _ l => l) 8 2 ((List.range 8).map dot)).size = 8 + 15 := by decide +kernel

end TDP.SortPart
