import Verif.EndToEnd.Nearest
import Verif.EndToEnd.IntersectEx
/-! A run of the nearest-neighbour join exists whenever the index can be built; a concrete pair of tiles. -/
namespace TDP.EndToEnd
open TDP.Boxes TDP.Join TDP.Kernels TDP.Gpu

theorem sorted_exists_pairs (l : List (Int × Range)) : ∃ s, SortedBy Prod.fst l s :=
  ⟨l.mergeSort (fun a b => decide (a.1 ≤ b.1)), List.mergeSort_perm _ _, by
    have := List.pairwise_mergeSort (le := fun a b : Int × Range => decide (a.1 ≤ b.1)) (by intro a b c; simp; omega)
      (by intro a b; simp; omega) l
    simpa using this⟩

theorem nnRounds_exist (threads : Nat) (heap : Nat → Voxel → List Seg) (top : Nat) : ∀ (lods : List Nat) (s : NNState),
    ∃ s', NNRounds (.cpu threads) heap top lods s s'
  | [], s => ⟨s, .nil s⟩
  | l :: lods, s => by
      have h1 : ∃ s1, NNRound (.cpu threads) (heap l) (l == top) s s1 :=
        ⟨_, _, fun _ _ => ⟨_, fun _ => 0, List.Perm.refl _, _, interleaving_sequential _, rfl⟩, rfl⟩
      obtain ⟨s1, h1⟩ := h1
      obtain ⟨s2, h2⟩ := nnRounds_exist threads heap top lods s1
      exact ⟨s2, .cons h1 h2⟩

theorem nnFilter_exists (tree : Octree.Node ℚ) (tile2 : Int → Wrapper) : ∀ tile1 : List (Object Seg), ∃ es, NNFilter tree tile2 tile1 es
  | [] => ⟨[], .nil⟩
  | a :: os => by
      obtain ⟨es, h⟩ := nnFilter_exists tree tile2 os
      obtain ⟨s, hs⟩ := sorted_exists_pairs (Octree.queryNN Fp.exact a.obj tree ([], none)).1
      by_cases hq : (mbbNN Fp.exact tile2 a.w s).cands = []
      · exact ⟨es, .empty hs hq h⟩
      · exact ⟨_, .keep hs hq h⟩

/-- Non-vacuity: the join runs whenever the index can be built. -/
theorem nnJoin_exists (threads : Nat) (mid : ℚ → ℚ → ℚ) (heap : Nat → Voxel → List Seg) (tile1 : List (Object Seg))
    (o : Object Seg) (os : List (Object Seg)) (tile2 : Int → Wrapper) (lods : List Nat) (fuel : Nat)
    (ht : (Octree.build mid 400 fuel o.obj (os.map Object.obj)).isSome) :
    ∃ final, NNJoin (.cpu threads) mid heap tile1 o os tile2 lods final := by
  obtain ⟨tree, ht⟩ := Option.isSome_iff_exists.1 ht
  obtain ⟨es, h1⟩ := nnFilter_exists tree tile2 tile1
  obtain ⟨es', h2⟩ := nnRounds_exist threads heap (lods.getLastD 0) lods (dropDecided ⟨es, [], 0⟩)
  exact ⟨es', fuel, tree, es, ht, h1, h2⟩

/-! One object and two possible neighbours with overlapping ranges. -/
namespace ExNN
def cub (l h : ℚ) : Box ℚ := ⟨fun _ => l, fun _ => h⟩
def sg (l h : ℚ) : Seg := ⟨fun _ => l, fun _ => h⟩
def ob (ptr : Nat) (id : Int) (l h l' h' : ℚ) : Object Seg :=
  ⟨ptr, ⟨id, cub l h, [⟨ptr, cub l h⟩]⟩, [fun _ => l], fun _ => [sg l' h']⟩
def oq : Object Seg := ob 1 0 0 1 0 1
def on : Object Seg := ob 2 0 2 3 2 3
def ofar : Object Seg := ob 3 1 2 4 3 4
def tile2 (i : Int) : Wrapper := if i = 1 then ofar.w else ⟨i, on.w.box, on.w.voxels⟩
def heap (_ : Nat) (v : Voxel) : List Seg := if v.addr = 1 then [sg 0 1] else if v.addr = 2 then [sg 2 3] else [sg 3 4]
def allV : List Voxel := [⟨1, cub 0 1⟩, ⟨2, cub 2 3⟩, ⟨3, cub 2 4⟩]

theorem cases_ob {x : Object Seg} (h : x ∈ [oq] ++ [on, ofar]) : x = oq ∨ x = on ∨ x = ofar := by simpa using h

theorem setting : Setting 6 (fun _ _ => 0) Seg.p heap [oq] on [ofar] tile2 [50, 100] allV where
  ids := by
    intro i
    unfold tile2
    by_cases h : i = 1
    · rw [if_pos h, h]; rfl
    · rw [if_neg h]
  tile := by
    intro b hb
    have : b = on ∨ b = ofar := by simpa using hb
    rcases this with rfl | rfl <;> exact ⟨rfl, by decide⟩
  solid := by
    intro b hb
    rcases cases_ob hb with rfl | rfl | rfl <;> intro i <;> simp [oq, on, ofar, ob, cub] <;> norm_num
  voxels := by
    intro b hb
    rcases cases_ob hb with rfl | rfl | rfl <;> simp [oq, on, ofar, ob, allV]
  filled := by
    intro lod _ b hb
    rcases cases_ob hb with rfl | rfl | rfl
    all_goals
      refine ⟨⟨[⟨_, cub 0 0, fun _ => none, fun _ => none⟩], _, rfl, rfl, by simp, rfl, ?_⟩, ?_⟩
      · simp [Voxels.Voxel.set, oq, on, ofar, ob, heap]
      · intro c _ e _; exact WithTop.coe_lt_top _
  fits := by
    intro lod _
    refine ⟨?_, by simp [heap, allV]⟩
    intro v hv v' hv' h
    simp [allV] at hv hv'
    rcases hv with rfl | rfl | rfl <;> rcases hv' with rfl | rfl | rfl <;> simp at h ⊢

/-- The nearer object is kept, with any number of threads. -/
example (threads : Nat) (ht : 1 ≤ threads) : ∃ final,
    NNJoin (.cpu threads) (fun a b => (a + b) / 2) heap [oq] on [ofar] tile2 [50, 100] final ∧
    ((∃ e ∈ final.opened, e.mesh = oq.w ∧ ∃ c ∈ e.cands, c.mesh = on.w) ∨
     (∃ e ∈ final.decided, e.mesh = oq.w ∧ ∃ c, e.cands = [c] ∧ c.mesh = on.w)) := by
  obtain ⟨final, h⟩ := nnJoin_exists threads (fun a b => (a + b) / 2) heap [oq] on [ofar] tile2 [50, 100] 10 (by decide +kernel)
  refine ⟨final, h, ?_⟩
  refine C64_nearest_kept_partial ht setting ?_ ?_ h oq (by simp) on (by simp) (by decide) 100 rfl 3 ?_ ?_ ?_ ?_
  · intro lod _ x hx s hs
    rcases cases_ob hx with rfl | rfl | rfl <;> simp [oq, on, ofar, ob] at hs <;> subst hs <;> intro h <;>
      have := congrFun h 0 <;> simp [sg] at this
  · intro lod _ v hv
    simp [allV] at hv
    rcases hv with rfl | rfl | rfl <;> simp [heap]
  · exact ⟨sg 0 1, by simp [oq, ob], sg 2 3, by simp [on, ob], by decide +kernel⟩
  · intro lod _ x hx _ s hs t ht
    have : x = on ∨ x = ofar := by simpa using hx
    simp [oq, ob] at hs
    subst hs
    rcases this with rfl | rfl <;> simp [on, ofar, ob] at ht <;> subst ht <;> decide +kernel
  · intro x hx
    refine ⟨?_, ?_⟩
    · intro s hs
      rcases cases_ob hx with rfl | rfl | rfl <;> simp [oq, on, ofar, ob] at hs <;> subst hs <;>
        refine ⟨fun i => ?_, fun i => ?_⟩ <;> simp [oq, on, ofar, ob, cub, sg] <;> norm_num
    · intro v hv s hs
      rcases cases_ob hx with rfl | rfl | rfl <;> simp [oq, on, ofar, ob] at hv <;> subst hv <;> simp [heap] at hs <;> subst hs <;>
        refine ⟨fun i => ?_, fun i => ?_⟩ <;> simp [cub, sg] <;> norm_num
  · intro x hx _
    have : x = on ∨ x = ofar := by simpa using hx
    rcases this with rfl | rfl
    · refine ⟨by decide +kernel, ?_⟩
      intro v1 h1 v2 h2
      simp [oq, ob] at h1; simp [on, ob] at h2; subst h1; subst h2; decide +kernel
    · refine ⟨by decide +kernel, ?_⟩
      intro v1 h1 v2 h2
      simp [oq, ob] at h1; simp [ofar, ob] at h2; subst h1; subst h2; decide +kernel

end ExNN
end TDP.EndToEnd
