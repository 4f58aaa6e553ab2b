import Verif.Octree.Queries
import Verif.Octree.Weight
import Verif.Boxes.Props
/-!
# C21-C23, C25: the octree

All statements are about the tree built by `build_octree` from any nonempty list of objects (sizes at
least 1, boxes of positive extent), in the given order, for any leaf size, whenever building ends. The mid
point function is arbitrary unless restricted.
-/
namespace TDP.Octree
open TDP.Boxes

section Order
variable {α : Type} [LinearOrder α]

/-- C21. A box query returns an identifier iff some indexed object other than the query object has it and
its box intersects the query box. -/
theorem C21_intersect_query_exact (mid : α → α → α) (tile fuel : Nat) (o : Obj α) (os : List (Obj α)) (t : Node α)
    (ht : build mid tile fuel o os = some t) (hs : ∀ v ∈ o :: os, 0 < v.size ∧ v.box.Solid)
    (q : Obj α) (hq : q.box.Solid) (x : Int) :
    x ∈ queryIntersect q t ↔ ∃ v ∈ o :: os, v.ptr ≠ q.ptr ∧ v.id = x ∧ v.box.intersect q.box = true := by
  obtain ⟨hH, hbox⟩ := build_holds mid tile fuel o os t ht (fun v hv => (hs v hv).1)
  constructor
  · exact queryIntersect_sound mid q t _ hH x
  · rintro ⟨v, hv, hne, rfl, hi⟩
    have hle := rootBox_contains o os v hv
    exact queryIntersect_complete mid q hq v (hs v hv).2 hi hne t _ hH hv
      (by rw [hbox]; exact intersect_of_le (hs v hv).2 hle) (by rw [hbox]; exact intersect_mono hle hi)

/-- C25. Every point of every object lies in a leaf that stores the object, so each object is in at least
one leaf and the tiles cover it. -/
theorem C25_no_object_lost (mid : α → α → α) (tile fuel : Nat) (o : Obj α) (os : List (Obj α)) (t : Node α)
    (ht : build mid tile fuel o os = some t) (hs : ∀ v ∈ o :: os, 0 < v.size ∧ v.box.Solid) :
    ∀ v ∈ o :: os, ∀ p, v.box.Mem p →
      (∃ l ∈ leaves t, l.1.Mem p ∧ v ∈ l.2) ∧ ∃ b ∈ genTiles t, b.Mem p := by
  obtain ⟨hH, hbox⟩ := build_holds mid tile fuel o os t ht (fun v hv => (hs v hv).1)
  intro v hv p hp
  have hle := rootBox_contains o os v hv
  obtain ⟨l, hl, h1, h2⟩ := leaf_of_point mid v (hs v hv).2 p hp t _ hH hv
    (by rw [hbox]; exact intersect_of_le (hs v hv).2 hle)
    (by rw [hbox]; exact fun i => ⟨le_trans (hle i).1 (hp i).1, le_trans (hp i).2 (hle i).2⟩)
  refine ⟨⟨l, hl, h1, h2⟩, l.1, ?_, h1⟩
  rw [genTiles_eq]
  exact List.mem_map.mpr ⟨l, List.mem_filter.mpr ⟨hl, by simpa using List.length_pos_of_mem h2⟩, rfl⟩

/-- C25. If the mid point of two coordinates lies between them, a leaf stores exactly the objects whose box
meets the leaf box, in insertion order, each once. -/
theorem C25_leaves_store_what_they_meet (mid : α → α → α) (hmid : ∀ x y, x ≤ y → x ≤ mid x y ∧ mid x y ≤ y)
    (tile fuel : Nat) (o : Obj α) (os : List (Obj α)) (t : Node α)
    (ht : build mid tile fuel o os = some t) (hs : ∀ v ∈ o :: os, 0 < v.size ∧ v.box.Solid) :
    ∀ l ∈ leaves t, l.2 = (o :: os).filter (fun v => l.1.intersect v.box) := by
  obtain ⟨hH, hbox⟩ := build_holds mid tile fuel o os t ht (fun v hv => (hs v hv).1)
  have hle := rootBox_contains o os
  intro l hl
  refine (leaf_objects mid hmid t _ hH ?_ ?_ l hl).2
  · rw [hbox]
    exact fun i => le_trans (hle o List.mem_cons_self i).1 (le_trans (le_of_lt ((hs o List.mem_cons_self).2 i))
      (hle o List.mem_cons_self i).2)
  · intro v hv
    rw [hbox]
    exact intersect_of_le (hs v hv).2 (hle v hv)

/-- C25, outside its range: a flat object lying in the splitting plane is in no child, whatever the order. -/
theorem C25_flat_object_on_the_plane (mid : α → α → α) (b : Box α) (v : Box α) (a : Fin 3)
    (h1 : v.min a = mid (b.min a) (b.max a)) (h2 : v.max a = mid (b.min a) (b.max a)) :
    ∀ i, (octant mid b i).intersect v = false := by
  intro i
  rw [← Bool.not_eq_true, intersect_iff]
  intro h
  have := h a
  unfold octant at this
  simp only [h1, h2] at this
  split at this
  · exact lt_irrefl _ this.1
  · exact lt_irrefl _ this.2

end Order

/-- C22. A within query returns exactly the identifiers of the objects (other than the query object) whose
box distance is at most the given distance, each with its box distance, for every rounding. -/
theorem C22_within_query_exact (F : Fp) (mid : ℚ → ℚ → ℚ) (tile fuel : Nat) (o : Obj ℚ) (os : List (Obj ℚ)) (t : Node ℚ)
    (ht : build mid tile fuel o os = some t) (hs : ∀ v ∈ o :: os, 0 < v.size ∧ v.box.Solid)
    (q : Obj ℚ) (hq : q.box.Valid) (D : ℚ) (x : Int) (r : Range) :
    (x, r) ∈ queryWithin F q D t ↔ ∃ v ∈ o :: os, v.ptr ≠ q.ptr ∧ v.id = x ∧ r = v.box.distance F q.box ∧
      r.mindist ≤ D := by
  obtain ⟨hH, hbox⟩ := build_holds mid tile fuel o os t ht (fun v hv => (hs v hv).1)
  constructor
  · intro h
    obtain ⟨v, h1, h2, h3, h4⟩ := queryWithin_sound F mid q D t _ hH _ h
    injection h3 with h3 h5
    subst h3 h5
    exact ⟨v, h1, h2, rfl, rfl, h4⟩
  · rintro ⟨v, hv, hne, rfl, rfl, hD⟩
    have hle := rootBox_contains o os v hv
    have hc := closest_mem v.box q.box (Solid.valid (hs v hv).2)
    exact queryWithin_complete F mid q hq D v (hs v hv).2 hD hne t _ hH hv
      (by rw [hbox]; exact intersect_of_le (hs v hv).2 hle)
      (by rw [hbox]; exact fun i => ⟨le_trans (hle i).1 (hc i).1, le_trans (hc i).2 (hle i).2⟩)

/-- C23. Every object that may be nearest (its minimum box distance does not exceed the maximum box distance
of any other object) is among the candidates with its own range, and every candidate is an indexed object
other than the query object with its own range. For every rounding that commutes with doubling. -/
theorem C23_nn_keeps_possible_nearest (F : Fp) (hF : ∀ x, F.rnd (2 * x) = 2 * F.rnd x)
    (mid : ℚ → ℚ → ℚ) (tile fuel : Nat) (o : Obj ℚ) (os : List (Obj ℚ)) (t : Node ℚ)
    (ht : build mid tile fuel o os = some t) (hs : ∀ v ∈ o :: os, 0 < v.size ∧ v.box.Solid)
    (q : Obj ℚ) (hq : q.box.Valid) :
    (∀ v ∈ o :: os, v.ptr ≠ q.ptr →
      (∀ w ∈ o :: os, w.ptr ≠ q.ptr → w ≠ v → (v.box.distance F q.box).mindist ≤ (w.box.distance F q.box).maxdist) →
      (v.id, v.box.distance F q.box) ∈ (queryNN F q t ([], none)).1) ∧
    ∀ c ∈ (queryNN F q t ([], none)).1, ∃ v ∈ o :: os, v.ptr ≠ q.ptr ∧ c = (v.id, v.box.distance F q.box) := by
  obtain ⟨hH, hbox⟩ := build_holds mid tile fuel o os t ht (fun v hv => (hs v hv).1)
  have h0 : NNInv F q (o :: os) ([], none) := ⟨by simp, by simp⟩
  constructor
  · intro v hv hne hw
    have hle := rootBox_contains o os v hv
    have hc := closest_mem v.box q.box (Solid.valid (hs v hv).2)
    refine queryNN_complete F mid hq ⟨hv, hne, ?_⟩ (hs v hv).2 t _ hH (fun _ h => h) hv
      (by rw [hbox]; exact intersect_of_le (hs v hv).2 hle)
      (by rw [hbox]; exact fun i => ⟨le_trans (hle i).1 (hc i).1, le_trans (hc i).2 (hle i).2⟩) _ h0
    intro w hwL hwne
    by_cases e : w = v
    · rw [e]; exact C19_mindist_le_maxdist F hF v.box q.box (Solid.valid (hs v hv).2) hq
    · exact hw w hwL hwne e
  · exact (queryNN_inv F mid q _ t _ hH (fun _ h => h) _ h0).1

/-! ### A concrete tree: five unit cubes on a diagonal, leaf size 3, so the root splits. -/

/-- Cube number `k`. -/
def cube (k : Nat) : Obj ℚ := ⟨k, k, ⟨fun _ => 2 * k, fun _ => 2 * k + 1⟩, 1⟩
/-- `(low + high) / 2` without rounding. -/
def half (x y : ℚ) : ℚ := (x + y) / 2

example : ∀ k, 0 < (cube k).size ∧ (cube k).box.Solid :=
  fun k => ⟨by simp [cube], fun i => by simp [cube]⟩
example : ((build half 3 10 (cube 0) [cube 1, cube 2, cube 4, cube 5]).map
    (fun t => (genTiles t).length)) = some 2 := by decide +kernel
example : ((build half 3 10 (cube 0) [cube 1, cube 2, cube 4, cube 5]).map
    (fun t => (queryIntersect ⟨100, 0, ⟨fun _ => 3 / 2, fun _ => 9 / 2⟩, 1⟩ t,
      (queryNN Fp.exact (cube 1) t ([], none)).1.map (·.1),
      (queryWithin Fp.exact (cube 1) 3 t).map (·.1)))) = some ([1, 2], [0, 2], [0, 2]) := by decide +kernel

/-- The concrete tree: two tiles, of two and three cubes, none heavier than 3. -/
example : ((build half 3 10 (cube 0) [cube 1, cube 2, cube 4, cube 5]).map
    (fun t => (leaves t).map (fun l => weight l.2))) = some [3, 0, 0, 0, 0, 0, 0, 2] := by decide +kernel

end TDP.Octree
