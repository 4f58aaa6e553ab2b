import Verif.SortPart.Lemmas
import Mathlib.Order.Fin.Basic
/-! # C26, C27: the sort partition -/
namespace TDP.SortPart
open TDP.Boxes TDP.Octree TDP.Bytes

section
variable {α : Type} [LinearOrder α] [BoundedOrder α]

/-- **C26.** For every sorting permutation, every list of objects and every requested number of tiles:
every input object (with its multiplicity) is in exactly one leaf, no leaf is empty, the box of a leaf
contains the boxes of its objects and is the least such box, and there are at most as many tiles as
requested. `r` is the integer cube root used, `pow` rounded down. -/
theorem C26_partition (sort : Fin 3 → List (Obj α) → List (Obj α)) (hs : ∀ i l, (sort i l).Perm l)
    (numTiles r : Nat) (hn : 0 < numTiles) (hr : r * r * r ≤ numTiles) (objs : List (Obj α)) :
    ((leaves (build sort numTiles r objs)).flatMap (·.objs)).Perm objs ∧
    (∀ l ∈ leaves (build sort numTiles r objs), l.objs ≠ [] ∧ (∀ o ∈ l.objs, o.box.Le l.box) ∧
      ∀ c : Box α, (∀ o ∈ l.objs, o.box.Le c) → l.box.Le c) ∧
    (leaves (build sort numTiles r objs)).length ≤ numTiles := by
  refine ⟨leaves_perm sort hs numTiles r objs, ?_, leaves_count sort numTiles r objs hn hr⟩
  intro l hl
  obtain ⟨g, hg, rfl⟩ := mem_leaves sort numTiles r objs l hl
  obtain ⟨h1, h2, h3⟩ := mkLeaf_spec g
  rw [h1, h3]
  refine ⟨hg, ?_, ?_⟩
  · intro o ho
    exact foldl_in emptyBox (g.map (fun o => Upd.box o.box)) (Upd.box o.box) (List.mem_map.mpr ⟨o, ho, rfl⟩)
  · intro c hc
    apply foldl_least
    · obtain ⟨o, ho⟩ := List.exists_mem_of_ne_nil g hg
      intro i
      exact ⟨le_top, bot_le⟩
    · intro u hu
      obtain ⟨o, ho, rfl⟩ := List.mem_map.mp hu
      exact hc o ho

/-- **C26**, the tiles reported: for a nonempty input they are exactly the boxes of the leaves, in order. -/
theorem C26_tiles (sort : Fin 3 → List (Obj α) → List (Obj α)) (hs : ∀ i l, (sort i l).Perm l)
    (numTiles r : Nat) (objs : List (Obj α)) (h : objs ≠ []) :
    genTiles (build sort numTiles r objs) = (leaves (build sort numTiles r objs)).map (·.box) := by
  obtain ⟨p1, p2, p3⟩ := parts_pos numTiles r
  have hcut : ∀ (p : Nat) (hp : 0 < p) (i : Fin 3) (l : List (Obj α)), l ≠ [] → cut p (sort i l) ≠ [] := by
    intro p hp i l hl e
    have := cut_flatten p hp (sort i l)
    rw [e, List.flatten_nil] at this
    have h2 := hs i l
    rw [← this] at h2
    exact hl h2.nil_eq.symm
  have hne : ∀ x ∈ (build sort numTiles r objs).kids, x.kids ≠ [] ∧ ∀ y ∈ x.kids, y.kids ≠ [] := by
    rw [build_eq, fromKids_kids]
    intro x hx
    obtain ⟨gx, hgx, rfl⟩ := List.mem_map.mp hx
    have g0 := cut_ne_nil _ p1 _ gx hgx
    rw [mkX_eq, fromKids_kids]
    refine ⟨by rw [Ne, List.map_eq_nil_iff]; exact hcut _ p2 _ _ g0, ?_⟩
    intro y hy
    obtain ⟨gy, hgy, rfl⟩ := List.mem_map.mp hy
    have g1 := cut_ne_nil _ p2 _ gy hgy
    rw [mkY_eq, fromKids_kids, Ne, List.map_eq_nil_iff]
    exact hcut _ p3 _ _ g1
  have h0 : (build sort numTiles r objs).kids ≠ [] := by
    rw [build_eq, fromKids_kids, Ne, List.map_eq_nil_iff]
    exact hcut _ p1 _ _ h
  generalize build sort numTiles r objs = t at hne h0
  unfold genTiles leaves
  rw [if_neg (by simpa using h0), List.map_flatMap]
  rw [List.flatMap_def, List.flatMap_def]
  congr 1
  apply List.map_congr_left
  intro x hx
  rw [if_neg (by simpa using (hne x hx).1), List.map_flatMap, List.flatMap_def, List.flatMap_def]
  congr 1
  apply List.map_congr_left
  intro y hy
  rw [if_neg (by simpa using (hne x hx).2 y hy)]

/-- **C27**, for partitions in which all nodes of a level have equally many children: what `persist` writes
is read back by `load` as the same tree — same boxes and sizes at all levels, in the same order. -/
theorem C27_uniform_partial (fc : FloatCode α) (sort : Fin 3 → List (Obj α) → List (Obj α))
    (numTiles r : Nat) (objs : List (Obj α)) (px py pz : Nat)
    (hu : Uniform (build sort numTiles r objs) px py pz)
    (bx : px < 256 ^ 8) (by' : py < 256 ^ 8) (bz : pz < 256 ^ 8)
    (hsz : ∀ l ∈ leaves (build sort numTiles r objs), l.size < 256 ^ 4) :
    ∃ bytes, persist fc (build sort numTiles r objs) = some bytes ∧
      load fc bytes = some (bare (build sort numTiles r objs)) := by
  refine ⟨_, persist_uniform fc _ px py pz hu, ?_⟩
  have hb := build_eq sort numTiles r objs
  have hk : (build sort numTiles r objs).kids =
      (cut (parts numTiles r).1 (sort 0 objs)).map (mkX sort (parts numTiles r).2.1 (parts numTiles r).2.2) := by
    rw [hb, fromKids_kids]
  have := load_written fc (build sort numTiles r objs).kids px py pz hu.x hu.y hu.z ?_ ?_ bx by' bz ?_
  · rw [this, hk, ← hb]
  · intro n hn
    rw [hk] at hn
    obtain ⟨g, _, rfl⟩ := List.mem_map.mp hn
    rw [mkX_eq, fromKids_kids]
  · intro n hn m hm
    rw [hk] at hn
    obtain ⟨g, _, rfl⟩ := List.mem_map.mp hn
    rw [mkX_eq, fromKids_kids] at hm
    obtain ⟨g', _, rfl⟩ := List.mem_map.mp hm
    rw [mkY_eq, fromKids_kids]
  · intro n hn m hm l hl
    exact hsz l (List.mem_flatMap.mpr ⟨n, hn, List.mem_flatMap.mpr ⟨m, hm, hl⟩⟩)

/-- **C27** for every input whose length is a positive multiple of the number of cuts. Missing for the full
property: other lengths, where it is false (next theorem). -/
theorem C27_roundtrip_partial (fc : FloatCode α) (sort : Fin 3 → List (Obj α) → List (Obj α))
    (hs : ∀ i l, (sort i l).Perm l) (numTiles r m : Nat) (hm : 0 < m) (objs : List (Obj α))
    (hlen : objs.length = (parts numTiles r).1 * ((parts numTiles r).2.1 * ((parts numTiles r).2.2 * m)))
    (hpx : (parts numTiles r).1 < 256 ^ 8) (hpz : (parts numTiles r).2.2 < 256 ^ 8)
    (hsz : ∀ l ∈ leaves (build sort numTiles r objs), l.size < 256 ^ 4) :
    ∃ bytes, persist fc (build sort numTiles r objs) = some bytes ∧
      load fc bytes = some (bare (build sort numTiles r objs)) := by
  obtain ⟨p1, p2, p3⟩ := parts_pos numTiles r
  have e0 : (sort 0 objs).length = _ := (hs 0 objs).length_eq.trans hlen
  obtain ⟨a1, a2⟩ := cut_exact _ _ p1 (Nat.mul_pos p2 (Nat.mul_pos p3 hm)) _ e0
  refine C27_uniform_partial fc sort numTiles r objs (parts numTiles r).1 (parts numTiles r).2.1 (parts numTiles r).2.2
    ⟨?_, ?_, ?_, p1, p2, p3⟩ hpx hpx hpz hsz
  · rw [build_eq, fromKids_kids, List.length_map]; exact a1
  · rw [build_eq, fromKids_kids]
    intro n hn
    obtain ⟨g, hg, rfl⟩ := List.mem_map.mp hn
    rw [mkX_eq, fromKids_kids, List.length_map]
    exact (cut_exact _ _ p2 (Nat.mul_pos p3 hm) _ ((hs 1 g).length_eq.trans (a2 g hg))).1
  · rw [build_eq, fromKids_kids]
    intro n hn y hy
    obtain ⟨g, hg, rfl⟩ := List.mem_map.mp hn
    rw [mkX_eq, fromKids_kids] at hy
    obtain ⟨g', hg', rfl⟩ := List.mem_map.mp hy
    rw [mkY_eq, fromKids_kids, List.length_map]
    have b2 := (cut_exact _ _ p2 (Nat.mul_pos p3 hm) _ ((hs 1 g).length_eq.trans (a2 g hg))).2
    exact (cut_exact _ _ p3 hm _ ((hs 2 g').length_eq.trans (b2 g' hg'))).1

end

/-! ### Concrete partitions over 32-bit patterns -/

instance : BoundedOrder (Fin (256 ^ 4)) := Fin.instBoundedOrder

/-- Object number `k`. -/
def dot (k : Nat) : Obj (Fin (256 ^ 4)) := ⟨k, k, ⟨fun _ => Fin.ofNat _ (10 * k), fun _ => Fin.ofNat _ (10 * k + 5)⟩, 1⟩

/-- `std::sort` by the lower corner. -/
def isort (i : Fin 3) (l : List (Obj (Fin (256 ^ 4)))) : List (Obj (Fin (256 ^ 4))) :=
  l.mergeSort (fun a b => decide (a.box.min i ≤ b.box.min i))

example : ∀ i l, (isort i l).Perm l := fun _ _ => List.mergeSort_perm _ _
example : parts 8 2 = (2, 2, 2) := by decide
example : parts 7 1 = (1, 1, 7) := by decide
/-- Nine objects and 8 tiles: 8 leaves. -/
example : ((leaves (build (fun _ l => l) 8 2 ((List.range 9).map dot))).map (fun l => l.objs.map (·.id))) =
    [[0, 1], [2], [3], [4], [5], [6], [7], [8]] := by decide +kernel

/-- **C27, counterexample.** Three objects and 8 requested tiles (2 cuts per axis): the second half of the
x cut has only one child, `persist` still asks for two: an access beyond the end of a vector. Any sorting
permutation gives this. -/
theorem C27_ragged_partition_counterexample :
    persist FloatCode.fin (build (fun _ l => l) 8 2 [dot 0, dot 1, dot 2]) = none := by decide +kernel

/-- **C26, witness**: the recorded size of a tile is one too large (a node starts with size 1). -/
theorem C26_size_counts_one_too_many :
    (leaves (build (fun _ l => l) 8 2 [dot 0])).map (·.size) = [2] := by decide +kernel

/-- A regular example for the round trip: one object per cut. -/
example : (persist FloatCode.fin (build (fun _ l => l) 8 2 ((List.range 8).map dot))).map (·.length) =
    some (24 + 8 * 28) := by decide +kernel

end TDP.SortPart
