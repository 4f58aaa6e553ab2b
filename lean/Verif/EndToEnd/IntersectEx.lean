import Verif.EndToEnd.Intersect
import Mathlib.Data.List.Sort
/-! A run of the intersection join exists whenever the index can be built; a concrete pair of tiles. -/
namespace TDP.EndToEnd
open TDP.Boxes TDP.Join TDP.Kernels TDP.Gpu

theorem round_exists (cfg : Cfg) (heap : Voxel → List Tri) (es : List Entry) : ∃ es', IntersectRound cfg heap es es' := by
  by_cases h : (flatPairs es).length = 0
  · exact ⟨_, .idle es h⟩
  · exact ⟨_, .run es _ (fun _ => 0) _ h (List.Perm.refl _) (interleaving_sequential _)⟩

theorem rounds_exist (cfg : Cfg) (heap : Nat → Voxel → List Tri) : ∀ (lods : List Nat) (es : List Entry),
    ∃ es', IntersectRounds cfg heap lods es es'
  | [], es => ⟨es, .nil es⟩
  | l :: lods, es => by
      obtain ⟨es1, h1⟩ := round_exists cfg (heap l) es
      obtain ⟨es2, h2⟩ := rounds_exist cfg heap lods es1
      exact ⟨es2, .cons h1 h2⟩

theorem sorted_exists (l : List Int) : ∃ s, SortedBy id l s :=
  ⟨l.mergeSort (· ≤ ·), List.mergeSort_perm _ _, by
    have := List.pairwise_mergeSort (le := fun a b : Int => decide (a ≤ b)) (by intro a b c; simp; omega)
      (by intro a b; simp; omega) l
    simpa using this⟩

theorem filter_exists {E : Type} (tree : Octree.Node ℚ) (tile2 : Int → Wrapper) : ∀ tile1 : List (Object E),
    ∃ es, Filter tree tile2 tile1 es
  | [] => ⟨[], .nil⟩
  | a :: os => by
      obtain ⟨es, h⟩ := filter_exists tree tile2 os
      by_cases hq : Octree.queryIntersect a.obj tree = []
      · exact ⟨es, .skip hq h⟩
      · obtain ⟨s, hs⟩ := sorted_exists (Octree.queryIntersect a.obj tree)
        exact ⟨_, .keep hq hs h⟩

/-- Non-vacuity: the join runs whenever the index can be built. -/
theorem intersectJoin_exists (cfg : Cfg) (mid : ℚ → ℚ → ℚ) (heap : Nat → Voxel → List Tri) (tile1 : List (Object Tri))
    (o : Object Tri) (os : List (Object Tri)) (tile2 : Int → Wrapper) (lods : List Nat) (fuel : Nat)
    (ht : (Octree.build mid 400 fuel o.obj (os.map Object.obj)).isSome) :
    ∃ start final, IntersectJoin cfg mid heap tile1 o os tile2 lods start final := by
  obtain ⟨tree, ht⟩ := Option.isSome_iff_exists.1 ht
  obtain ⟨es, h1⟩ := filter_exists tree tile2 tile1
  obtain ⟨es', h2⟩ := rounds_exist cfg heap lods es
  exact ⟨es, es', fuel, tree, ht, h1, h2⟩

/-! Two tiles with one object each; each object has one voxel and the same triangle at both levels. -/
namespace Ex
def bx : Box ℚ := ⟨fun _ => 0, fun _ => 2⟩
def t1 : Tri := ⟨fun _ => 0, pt3 1 0 0, pt3 0 1 0⟩
def t2 : Tri := ⟨pt3 (1/4) (1/4) (-1), pt3 0 0 2, pt3 1 0 2⟩
def va : Voxel := ⟨100, bx⟩
def vb : Voxel := ⟨200, bx⟩
def oa : Object Tri := ⟨1, ⟨0, bx, [va]⟩, [fun _ => 1], fun _ => [t1]⟩
def ob : Object Tri := ⟨2, ⟨0, bx, [vb]⟩, [fun _ => 1], fun _ => [t2]⟩
def tile2 (i : Int) : Wrapper := ⟨i, bx, [vb]⟩
def heap (_ : Nat) (v : Voxel) : List Tri := if v.addr = 100 then [t1] else [t2]

theorem setting : Setting 9 (fun _ _ => 0) Tri.C heap [oa] ob [] tile2 [50, 100] [va, vb] where
  ids := fun _ => rfl
  tile := by intro b hb; simp at hb; subst hb; exact ⟨rfl, by decide⟩
  solid := by
    intro b hb
    have : b = oa ∨ b = ob := by simpa using hb
    rcases this with rfl | rfl <;> intro i <;> simp [oa, ob, bx]
  voxels := by
    intro b hb
    have : b = oa ∨ b = ob := by simpa using hb
    rcases this with rfl | rfl <;> simp [oa, ob]
  filled := by
    intro lod _ b hb
    have : b = oa ∨ b = ob := by simpa using hb
    refine ⟨⟨[⟨fun _ => 1, bx, fun _ => none, fun _ => none⟩], _, ?_, ?_, ?_, rfl, ?_⟩, ?_⟩
    · rcases this with rfl | rfl <;> rfl
    · rcases this with rfl | rfl <;> rfl
    · simp
    · rcases this with rfl | rfl <;> simp [Voxels.Voxel.set, oa, ob, heap, va, vb]
    · intro c _ e _; exact WithTop.coe_lt_top _
  fits := by
    intro lod _
    refine ⟨?_, by simp [heap, va, vb]⟩
    intro v hv v' hv' h
    simp at hv hv'
    rcases hv with rfl | rfl <;> rcases hv' with rfl | rfl <;> simp [va, vb] at h ⊢

/-- The two triangles meet: the object is decided in every run, on the GPU and with one CPU thread. -/
example (cfg : Cfg) (hcfg : cfg = .gpu ∨ cfg = .cpu 1) : ∃ start final,
    IntersectJoin cfg (fun a b => (a + b) / 2) heap [oa] ob [] tile2 [50, 100] start final ∧ ∀ e ∈ final, e.mesh ≠ oa.w := by
  obtain ⟨start, final, h⟩ := intersectJoin_exists cfg (fun a b => (a + b) / 2) heap [oa] ob [] tile2 [50, 100] 10 (by
    decide +kernel)
  refine ⟨start, final, h, ?_⟩
  refine C62_hit_is_decided_partial hcfg setting h ?_ oa (by simp) ob (by simp) (by decide) (by decide +kernel) 50 (by simp)
    t1 (by simp [oa]) t2 (by simp [ob]) ?_ (by decide +kernel)
  · intro a ha a' ha' _
    simp at ha ha'; rw [ha, ha']
  · intro v1 h1 v2 h2 _ _
    simp [oa] at h1; simp [ob] at h2; subst h1; subst h2; decide +kernel

end Ex
end TDP.EndToEnd
