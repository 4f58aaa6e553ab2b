import Verif.Join.Rounds2
import Verif.Octree.Props
import Mathlib.Tactic.NormNum
/-!
# Properties of the join: C24, C39, C40, C41, C52
-/
namespace TDP.Join
open TDP.Boxes TDP.Octree

/-! ## C24 -/

/-- C24. Whatever order `std::sort` gives equal identifiers, after the sort-and-skip step the identifiers are
strictly increasing (so each occurs once), and exactly the identifiers of the list occur; nothing is invented. -/
theorem C24_once_in_order {A : Type} (key : A → Int) (l s : List A) (hs : SortedBy key l s) (hpos : ∀ a ∈ l, 0 ≤ key a) :
    ((skipDup key (-1) s).map key).Pairwise (· < ·) ∧
    (∀ x, x ∈ (skipDup key (-1) s).map key ↔ x ∈ l.map key) ∧
    (∀ a ∈ skipDup key (-1) s, a ∈ l) := by
  have hmem : ∀ a, a ∈ s ↔ a ∈ l := fun a => hs.1.mem_iff
  obtain ⟨h1, h2, h3⟩ := skipDup_spec key s (-1) hs.2
    (fun a ha => by have := hpos a ((hmem a).1 ha); omega)
  have hsub : ∀ a ∈ skipDup key (-1) s, a ∈ l := fun a ha => (hmem a).1 ((skipDup_sublist key s (-1)).subset ha)
  refine ⟨List.pairwise_map.2 h1, ?_, hsub⟩
  intro x
  simp only [List.mem_map]
  constructor
  · rintro ⟨a, ha, rfl⟩
    exact ⟨a, hsub a ha, rfl⟩
  · rintro ⟨a, ha, rfl⟩
    rcases h3 a ((hmem a).2 ha) with h | h
    · have := hpos a ha; omega
    · exact h

example : skipDup Prod.fst (-1) [((0 : Int), 'a'), (0, 'b'), (3, 'c'), (3, 'd'), (7, 'e')] = [(0, 'a'), (3, 'c'), (7, 'e')] := by
  decide

/-- C24, the intersection join as a whole: the candidates of an object are, once each and in increasing order,
the objects other than itself whose box intersects its box and of which some voxel box intersects one of
its voxel boxes; and each candidate lists exactly its intersecting voxel pairs. -/
theorem C24_intersect_candidates (mid : ℚ → ℚ → ℚ) (tile fuel : Nat) (o : Obj ℚ) (os : List (Obj ℚ)) (t : Node ℚ)
    (ht : build mid tile fuel o os = some t) (hs : ∀ v ∈ o :: os, 0 < v.size ∧ v.box.Solid ∧ 0 ≤ v.id)
    (tile2 : Int → Wrapper) (hid : ∀ i, (tile2 i).id = i)
    (q : Obj ℚ) (w1 : Wrapper) (hq : q.box.Solid) (ids : List Int) (hsort : SortedBy id (queryIntersect q t) ids) :
    ((mbbIntersect tile2 w1 ids).cands.map (·.mesh.id)).Pairwise (· < ·) ∧
    (∀ x, x ∈ (mbbIntersect tile2 w1 ids).cands.map (·.mesh.id) ↔
      ∃ v ∈ o :: os, v.id = x ∧ v.ptr ≠ q.ptr ∧ v.box.intersect q.box = true ∧
        ∃ v1 ∈ w1.voxels, ∃ v2 ∈ (tile2 x).voxels, v1.box.intersect v2.box = true) ∧
    (∀ c ∈ (mbbIntersect tile2 w1 ids).cands, ∀ v1 v2,
      (∃ p ∈ c.pairs, p.v1 = v1 ∧ p.v2 = v2) ↔
        v1 ∈ w1.voxels ∧ v2 ∈ c.mesh.voxels ∧ v1.box.intersect v2.box = true) := by
  have hq21 := fun x => C21_intersect_query_exact mid tile fuel o os t ht (fun v hv => ⟨(hs v hv).1, (hs v hv).2.1⟩) q hq x
  obtain ⟨h1, h2, _⟩ := C24_once_in_order id _ ids hsort (by
    intro x hx
    obtain ⟨v, hv, _, rfl, _⟩ := (hq21 x).1 hx
    exact (hs v hv).2.2)
  simp only [List.map_id, id_eq] at h1 h2
  have hpairs : ∀ w2 v1 v2, (∃ p ∈ (intersectCand w1 w2).pairs, p.v1 = v1 ∧ p.v2 = v2) ↔
      v1 ∈ w1.voxels ∧ v2 ∈ w2.voxels ∧ v1.box.intersect v2.box = true := by
    intro w2 v1 v2
    unfold intersectCand voxelPairs
    simp only [List.mem_map, List.mem_filter, List.mem_flatMap]
    constructor
    · rintro ⟨p, ⟨⟨a, b⟩, ⟨⟨a', ha, b', hb, he⟩, hi⟩, rfl⟩, rfl, rfl⟩
      injection he with e1 e2
      subst e1 e2
      exact ⟨ha, hb, hi⟩
    · rintro ⟨ha, hb, hi⟩
      exact ⟨_, ⟨(v1, v2), ⟨⟨v1, ha, v2, hb, rfl⟩, hi⟩, rfl⟩, rfl, rfl⟩
  refine ⟨?_, ?_, ?_⟩
  · unfold mbbIntersect
    simp only
    refine List.Pairwise.sublist (List.Sublist.map _ List.filter_sublist) ?_
    rw [List.map_map]
    have : ((fun c : Cand => c.mesh.id) ∘ fun i => intersectCand w1 (tile2 i)) = id := by
      funext i; simp [intersectCand, hid]
    rw [this, List.map_id]
    exact h1
  · intro x
    have key : x ∈ (mbbIntersect tile2 w1 ids).cands.map (·.mesh.id) ↔
        x ∈ skipDup id (-1) ids ∧ (intersectCand w1 (tile2 x)).pairs ≠ [] := by
      unfold mbbIntersect
      simp only [List.mem_map, List.mem_filter, decide_eq_true_eq, gt_iff_lt, List.length_pos_iff]
      constructor
      · rintro ⟨c, ⟨⟨i, hi, rfl⟩, hne⟩, rfl⟩
        have : (intersectCand w1 (tile2 i)).mesh.id = i := by simp [intersectCand, hid]
        rw [this]
        exact ⟨hi, hne⟩
      · rintro ⟨hi, hne⟩
        exact ⟨_, ⟨⟨x, hi, rfl⟩, hne⟩, by simp [intersectCand, hid]⟩
    rw [key, h2 x, hq21 x]
    constructor
    · rintro ⟨⟨v, hv, a, b, c⟩, hne⟩
      obtain ⟨p, hp⟩ := List.exists_mem_of_ne_nil _ hne
      obtain ⟨e1, e2, e3⟩ := (hpairs (tile2 x) p.v1 p.v2).1 ⟨p, hp, rfl, rfl⟩
      exact ⟨v, hv, b, a, c, _, e1, _, e2, e3⟩
    · rintro ⟨v, hv, b, a, c, v1, e1, v2, e2, e3⟩
      refine ⟨⟨v, hv, a, b, c⟩, ?_⟩
      obtain ⟨p, hp, _⟩ := (hpairs (tile2 x) v1 v2).2 ⟨e1, e2, e3⟩
      exact List.ne_nil_of_mem hp
  · intro c hc v1 v2
    unfold mbbIntersect at hc
    simp only [List.mem_map, List.mem_filter] at hc
    obtain ⟨⟨i, hi, rfl⟩, _⟩ := hc
    exact hpairs (tile2 i) v1 v2

/-! ## C39 -/

/-- Specification: object `w`, with the voxel pair `(a, b)`, is still listed in the entry. -/
def Listed (e : Entry) (w : Wrapper) (a b : Voxel) : Prop :=
  ∃ c ∈ e.cands, c.mesh = w ∧ ∃ x ∈ c.pairs, x.v1 = a ∧ x.v2 = b

/-- The pairs considered for an object. -/
def Considered (tile2 : Int → Wrapper) (w1 : Wrapper) (ids0 : List (Int × Range)) (x y : Voxel) : Prop :=
  x ∈ w1.voxels ∧ ∃ p' ∈ ids0, y ∈ (tile2 p'.1).voxels

theorem mbbNN_keeps (F : Fp) (tile2 : Int → Wrapper) (w1 : Wrapper) (ids0 ids : List (Int × Range))
    (hsort : SortedBy Prod.fst ids0 ids) (hpos : ∀ p ∈ ids0, 0 ≤ p.1) (P : Voxel → Voxel → Prop) (m : ℚ)
    (hbox : ∀ p ∈ ids0, ∀ v1 ∈ w1.voxels, ∀ v2 ∈ (tile2 p.1).voxels,
      (P v1 v2 → (v1.box.distance F v2.box).mindist ≤ m) ∧ m ≤ (v1.box.distance F v2.box).maxdist)
    (hobj : ∀ p ∈ ids0, (∀ v1 ∈ w1.voxels, ∀ v2 ∈ (tile2 p.1).voxels, P v1 v2 → p.2.mindist ≤ m) ∧ m ≤ p.2.maxdist)
    (p : Int × Range) (hp : p ∈ ids0) (a b : Voxel) (ha : a ∈ w1.voxels) (hb : b ∈ (tile2 p.1).voxels) (hP : P a b) :
    (∀ c ∈ (mbbNN F tile2 w1 ids).cands, GoodCand P (Considered tile2 w1 ids0) m c) ∧
    Has (mbbNN F tile2 w1 ids).cands (tile2 p.1) a b := by
  have hvp : ∀ w2 q, q ∈ voxelPairs w1 w2 ↔ q.1 ∈ w1.voxels ∧ q.2 ∈ w2.voxels := by
    intro w2 q
    unfold voxelPairs
    simp only [List.mem_flatMap, List.mem_map]
    constructor
    · rintro ⟨x, hx, y, hy, rfl⟩; exact ⟨hx, hy⟩
    · rintro ⟨hx, hy⟩; exact ⟨_, hx, _, hy, rfl⟩
  obtain ⟨_, k2, k3⟩ := C24_once_in_order Prod.fst ids0 ids hsort hpos
  obtain ⟨b1, _, b3⟩ := nnCand_fold (F := F) (tile2 := tile2) (w1 := w1) (P := P) (U := Considered tile2 w1 ids0) (m := m)
    (by rintro x y ⟨hx, p', hp', hy⟩; exact hbox p' hp' x hx y hy)
    (skipDup Prod.fst (-1) ids) []
    (by
      intro r hr
      have hr0 := k3 r hr
      refine ⟨?_, ?_, (hobj r hr0).2⟩
      · intro q hq
        obtain ⟨q1, q2⟩ := (hvp _ q).1 hq
        exact ⟨q1, r, hr0, q2⟩
      · intro q hq
        obtain ⟨q1, q2⟩ := (hvp _ q).1 hq
        exact (hobj r hr0).1 _ q1 _ q2)
    (by simp)
  obtain ⟨r, hr, hrp⟩ := List.mem_map.1 ((k2 p.1).2 (List.mem_map.2 ⟨p, hp, rfl⟩))
  have hhas := b3 r hr (a, b) ((hvp _ _).2 ⟨ha, by rw [hrp]; exact hb⟩) hP
  rw [hrp] at hhas
  exact ⟨b1, hhas⟩

theorem tracked_result {P U : Voxel → Voxel → Prop} {m : ℚ} {w1 w : Wrapper} {a b : Voxel} {s : NNState}
    (h : Tracked P U m w1 w a b s) :
    (∃ e ∈ s.opened, e.mesh = w1 ∧ Listed e w a b) ∨
    (∃ e ∈ s.decided, e.mesh = w1 ∧ ∃ c, e.cands = [c] ∧ c.mesh = w) := by
  obtain ⟨⟨e, hee, e1, _, e3⟩, h4⟩ := h
  rcases List.mem_append.1 hee with hee | hee
  · exact Or.inl ⟨e, hee, e1, e3⟩
  · refine Or.inr ⟨e, hee, e1, ?_⟩
    have hl := h4 e hee
    obtain ⟨c, hc, hcm, _⟩ := e3
    cases hcs : e.cands with
    | nil => rw [hcs] at hc; simp at hc
    | cons y ys =>
      rw [hcs] at hl hc
      have : ys = [] := by
        cases ys with
        | nil => rfl
        | cons z zs => simp at hl
      subst this
      rw [List.mem_singleton] at hc
      subst hc
      exact ⟨c, rfl, hcm⟩

/-- The level taken for the highest is the last one of the list. -/
theorem highest_last {lods : List Int} {lod : Int} (hm : lod ∈ lods) (h : lod = highestLod lods) : lods.getLast? = some lod := by
  unfold highestLod at h
  rw [List.getLastD_eq_getLast?] at h
  cases hl : lods.getLast? with
  | none => rw [List.getLast?_eq_none_iff] at hl; simp [hl] at hm
  | some x => rw [hl] at h; rw [h]; rfl

/-- C39. `T v1 v2` is the true distance of the contents of two voxels. Assume the box ranges of voxel pairs and
of objects are right, the kernel never underestimates at a lower level of detail and is exact at the last one of the list.
If `(a, b)` is a voxel pair of object `p` at the smallest true distance of all, then after any number of
refinement rounds the entry of the object is either still open and lists `p` with this pair, or it was decided
and its one candidate is `p`. -/
theorem C39_nearest_survives (F : Fp) (tile2 : Int → Wrapper) (w1 : Wrapper) (ids0 ids : List (Int × Range))
    (hsort : SortedBy Prod.fst ids0 ids) (hpos : ∀ p ∈ ids0, 0 ≤ p.1)
    (T : Voxel → Voxel → ℚ)
    (hbox : ∀ p ∈ ids0, ∀ v1 ∈ w1.voxels, ∀ v2 ∈ (tile2 p.1).voxels,
      (v1.box.distance F v2.box).mindist ≤ T v1 v2 ∧ T v1 v2 ≤ (v1.box.distance F v2.box).maxdist)
    (hobj : ∀ p ∈ ids0, (∀ v1 ∈ w1.voxels, ∀ v2 ∈ (tile2 p.1).voxels, p.2.mindist ≤ T v1 v2) ∧
      ∃ v1 ∈ w1.voxels, ∃ v2 ∈ (tile2 p.1).voxels, T v1 v2 ≤ p.2.maxdist)
    (lods : List Int) (rounds : Int → Round)
    (hround : ∀ lod ∈ lods, ∀ p ∈ ids0, ∀ v1 ∈ w1.voxels, ∀ v2 ∈ (tile2 p.1).voxels,
      (rounds lod).size v1 > 0 → (rounds lod).size v2 > 0 →
      T v1 v2 ≤ (rounds lod).kernel v1 v2 ∧ (lods.getLast? = some lod → (rounds lod).kernel v1 v2 = T v1 v2))
    (es : List Entry) (he : mbbNN F tile2 w1 ids ∈ es)
    (p : Int × Range) (hp : p ∈ ids0) (a b : Voxel) (ha : a ∈ w1.voxels) (hb : b ∈ (tile2 p.1).voxels)
    (hnear : ∀ p' ∈ ids0, ∀ v1 ∈ w1.voxels, ∀ v2 ∈ (tile2 p'.1).voxels, T a b ≤ T v1 v2) :
    (∃ e ∈ (nearestNeighbor lods rounds es).opened, e.mesh = w1 ∧ Listed e (tile2 p.1) a b) ∨
    (∃ e ∈ (nearestNeighbor lods rounds es).decided, e.mesh = w1 ∧ ∃ c, e.cands = [c] ∧ c.mesh = tile2 p.1) := by
  obtain ⟨b1, b2⟩ := mbbNN_keeps F tile2 w1 ids0 ids hsort hpos (fun x y => T x y = T a b) (T a b)
    (fun p' hp' v1 h1 v2 h2 => ⟨fun h => h ▸ (hbox p' hp' v1 h1 v2 h2).1, le_trans (hnear p' hp' v1 h1 v2 h2) (hbox p' hp' v1 h1 v2 h2).2⟩)
    (fun p' hp' => ⟨fun v1 h1 v2 h2 h => h ▸ (hobj p' hp').1 v1 h1 v2 h2, by
      obtain ⟨v1, h1, v2, h2, h3⟩ := (hobj p' hp').2
      exact le_trans (hnear p' hp' v1 h1 v2 h2) h3⟩) p hp a b ha hb rfl
  apply tracked_result (P := fun x y => T x y = T a b) (U := Considered tile2 w1 ids0) (m := T a b)
  unfold nearestNeighbor
  refine tracked_fold (P := fun x y => T x y = T a b) (fun lod => lod == highestLod lods) rounds rfl lods _ ?_ (tracked_drop (s := ⟨es, [], 0⟩) ⟨?_, by simp⟩)
  · rintro lod hlod x y ⟨hx, p', hp', hy⟩ s1 s2
    obtain ⟨g1, g2⟩ := hround lod hlod p' hp' x hx y hy s1 s2
    exact ⟨le_trans (hnear p' hp' x hx y hy) g1, fun h h' => le_of_eq ((g2 (highest_last hlod (by simpa using h))).trans h')⟩
  · exact ⟨mbbNN F tile2 w1 ids, List.mem_append_left _ he, rfl, b1, b2⟩

/-! A concrete case: one object, two candidates whose ranges overlap, two rounds (levels 50 and 100). -/
section Example
/-- A cube. -/
def cube (l h : ℚ) : Box ℚ := ⟨fun _ => l, fun _ => h⟩
/-- The query object. -/
def exW1 : Wrapper := ⟨0, cube 0 1, [⟨10, cube 0 1⟩]⟩
/-- The candidates: 1 is nearest. -/
def exTile : Int → Wrapper
  | 1 => ⟨1, cube 2 3, [⟨11, cube 2 3⟩]⟩
  | i => ⟨i, cube 2 4, [⟨12, cube 2 4⟩]⟩
/-- The index result, with a duplicate. -/
def exIds : List (Int × Range) := [(1, ⟨3, 12⟩), (2, ⟨3, 75/4⟩), (2, ⟨3, 75/4⟩)]
/-- The true distances. -/
def exT (_ v2 : Voxel) : ℚ := if v2.addr = 11 then 6 else 9
/-- The rounds. -/
def exRounds (lod : Int) : Round := ⟨fun _ => 5, fun a b => if lod = 100 then exT a b else exT a b + 1⟩

theorem exDist1 : (cube 0 1).distance Fp.exact (cube 2 3) = ⟨3, 12⟩ := by decide +kernel
theorem exDist2 : (cube 0 1).distance Fp.exact (cube 2 4) = ⟨3, 75/4⟩ := by decide +kernel

example :
    (∃ e ∈ (nearestNeighbor [50, 100] exRounds [mbbNN Fp.exact exTile exW1 exIds]).opened,
      e.mesh = exW1 ∧ Listed e (exTile 1) ⟨10, cube 0 1⟩ ⟨11, cube 2 3⟩) ∨
    (∃ e ∈ (nearestNeighbor [50, 100] exRounds [mbbNN Fp.exact exTile exW1 exIds]).decided,
      e.mesh = exW1 ∧ ∃ c, e.cands = [c] ∧ c.mesh = exTile 1) := by
  refine C39_nearest_survives Fp.exact exTile exW1 exIds exIds ⟨List.Perm.refl _, by simp [exIds]⟩ (by simp [exIds]) exT
    ?_ ?_ [50, 100] exRounds ?_ [mbbNN Fp.exact exTile exW1 exIds] (List.mem_singleton.2 rfl) (1, ⟨3, 12⟩) (by simp [exIds]) _ _
    (by simp [exW1]) (by simp [exTile]) ?_
  · simp only [exIds, exW1, List.mem_cons, List.not_mem_nil, or_false]
    rintro p (rfl | rfl | rfl) v1 rfl v2 hv2 <;> simp only [exTile, List.mem_cons, List.not_mem_nil, or_false] at hv2 <;>
      subst hv2 <;> simp only [exDist1, exDist2, exT] <;> norm_num
  · simp only [exIds, exW1, List.mem_cons, List.not_mem_nil, or_false]
    rintro p (rfl | rfl | rfl) <;> simp [exTile, exT] <;> norm_num
  · intro lod hlod p _ v1 _ v2 _ _ _
    simp only [List.mem_cons, List.not_mem_nil, or_false] at hlod
    rcases hlod with rfl | rfl <;> simp [exRounds]
  · simp only [exIds, exW1, List.mem_cons, List.not_mem_nil, or_false]
    rintro p (rfl | rfl | rfl) v1 rfl v2 hv2 <;> simp only [exTile, List.mem_cons, List.not_mem_nil, or_false] at hv2 <;>
      subst hv2 <;> simp [exT] <;> norm_num

/-- In this case the entry is undecided after filtering and decided by the rounds. -/
example : (mbbNN Fp.exact exTile exW1 exIds).cands.length = 2 ∧
    ((nearestNeighbor [50, 100] exRounds [mbbNN Fp.exact exTile exW1 exIds]).decided.map
      (fun e => e.cands.map (·.mesh.id))) = [[1]] := by decide +kernel
end Example

/-- C39 for a whole tile: with the candidates taken from the octree of the second tile. The nearest object of
the tile (other than the query object itself) survives filtering and refinement. -/
theorem C39_nearest_of_tile_survives (F : Fp) (hF : ∀ x, F.rnd (2 * x) = 2 * F.rnd x) (mid : ℚ → ℚ → ℚ) (tile fuel : Nat)
    (o : Obj ℚ) (os : List (Obj ℚ)) (t : Node ℚ)
    (ht : build mid tile fuel o os = some t) (hs : ∀ v ∈ o :: os, 0 < v.size ∧ v.box.Solid ∧ 0 ≤ v.id)
    (q : Obj ℚ) (hq : q.box.Valid) (tile2 : Int → Wrapper) (w1 : Wrapper) (ids : List (Int × Range))
    (hsort : SortedBy Prod.fst (queryNN F q t ([], none)).1 ids)
    (T : Voxel → Voxel → ℚ)
    (hbox : ∀ v ∈ o :: os, v.ptr ≠ q.ptr → ∀ v1 ∈ w1.voxels, ∀ v2 ∈ (tile2 v.id).voxels,
      (v1.box.distance F v2.box).mindist ≤ T v1 v2 ∧ T v1 v2 ≤ (v1.box.distance F v2.box).maxdist)
    (hobj : ∀ v ∈ o :: os, v.ptr ≠ q.ptr →
      (∀ v1 ∈ w1.voxels, ∀ v2 ∈ (tile2 v.id).voxels, (v.box.distance F q.box).mindist ≤ T v1 v2) ∧
      ∃ v1 ∈ w1.voxels, ∃ v2 ∈ (tile2 v.id).voxels, T v1 v2 ≤ (v.box.distance F q.box).maxdist)
    (lods : List Int) (rounds : Int → Round)
    (hround : ∀ lod ∈ lods, ∀ v ∈ o :: os, v.ptr ≠ q.ptr → ∀ v1 ∈ w1.voxels, ∀ v2 ∈ (tile2 v.id).voxels,
      (rounds lod).size v1 > 0 → (rounds lod).size v2 > 0 →
      T v1 v2 ≤ (rounds lod).kernel v1 v2 ∧ (lods.getLast? = some lod → (rounds lod).kernel v1 v2 = T v1 v2))
    (es : List Entry) (he : mbbNN F tile2 w1 ids ∈ es)
    (v : Obj ℚ) (hv : v ∈ o :: os) (hvq : v.ptr ≠ q.ptr)
    (a b : Voxel) (ha : a ∈ w1.voxels) (hb : b ∈ (tile2 v.id).voxels)
    (hnear : ∀ w ∈ o :: os, w.ptr ≠ q.ptr → ∀ v1 ∈ w1.voxels, ∀ v2 ∈ (tile2 w.id).voxels, T a b ≤ T v1 v2) :
    (∃ e ∈ (nearestNeighbor lods rounds es).opened, e.mesh = w1 ∧ Listed e (tile2 v.id) a b) ∨
    (∃ e ∈ (nearestNeighbor lods rounds es).decided, e.mesh = w1 ∧ ∃ c, e.cands = [c] ∧ c.mesh = tile2 v.id) := by
  obtain ⟨k1, k2⟩ := C23_nn_keeps_possible_nearest F hF mid tile fuel o os t ht
    (fun v hv => ⟨(hs v hv).1, (hs v hv).2.1⟩) q hq
  refine C39_nearest_survives F tile2 w1 _ ids hsort ?_ T ?_ ?_ lods rounds ?_ es he (v.id, v.box.distance F q.box) ?_ a b ha hb ?_
  · intro p hp
    obtain ⟨w, hw, _, rfl⟩ := k2 p hp
    exact (hs w hw).2.2
  · intro p hp
    obtain ⟨w, hw, h1, rfl⟩ := k2 p hp
    exact hbox w hw h1
  · intro p hp
    obtain ⟨w, hw, h1, rfl⟩ := k2 p hp
    exact hobj w hw h1
  · intro lod hlod p hp
    obtain ⟨w, hw, h1, rfl⟩ := k2 p hp
    exact hround lod hlod w hw h1
  · refine k1 v hv hvq ?_
    intro w hw hwq _
    obtain ⟨v1, h1, v2, h2, h3⟩ := (hobj w hw hwq).2
    exact le_trans ((hobj v hv hvq).1 a ha b hb) (le_trans (hnear w hw hwq v1 h1 v2 h2) h3)
  · intro p hp
    obtain ⟨w, hw, h1, rfl⟩ := k2 p hp
    exact hnear w hw h1

/-! ## C52 -/

/-- C52 (partial: an upper bound, see the counterexample below). In a round that computes anything, the reported
maximum nearest distance does not decrease and becomes at least the nearest true distance `m` of every open
entry with right ranges. -/
theorem C52_max_nearest_upper_bound_partial (T : Voxel → Voxel → ℚ) (U : Voxel → Voxel → Prop) (m : ℚ)
    (hm : ∀ a b, U a b → m ≤ T a b) (top : Bool) (r : Round)
    (hr : ∀ a b, U a b → r.size a > 0 → r.size b > 0 → T a b ≤ r.kernel a b ∧ (top = true → r.kernel a b = T a b))
    (s : NNState) (hsome : segmentPairs r s.opened ≠ 0) (e : Entry) (he : e ∈ s.opened)
    (hgood : ∀ c ∈ e.cands, (∀ x ∈ c.pairs, U x.v1 x.v2 ∧ x.dist.mindist ≤ T x.v1 x.v2 ∧ T x.v1 x.v2 ≤ x.dist.maxdist ∧
      c.distance.mindist ≤ T x.v1 x.v2) ∧ m ≤ c.distance.maxdist) :
    s.maxNear ≤ (nnRound top r s).maxNear ∧ (m : WithTop ℚ) ≤ (nnRound top r s).maxNear := by
  have h1 : (flatPairs s.opened).length ≠ 0 := by
    intro h
    rw [List.length_eq_zero_iff] at h
    apply hsome
    unfold segmentPairs
    rw [h]; rfl
  have hg : ∀ c ∈ e.cands, GoodCand (fun x y => T x y = m) U m c := by
    intro c hc
    obtain ⟨a, b⟩ := hgood c hc
    exact ⟨fun x hx => ⟨⟨(a x hx).1, fun h => h ▸ (a x hx).2.1, le_trans (hm _ _ (a x hx).1) (a x hx).2.2.1⟩,
      fun h => h ▸ (a x hx).2.2.2⟩, b⟩
  unfold nnRound nnStep
  rw [if_neg h1, if_neg hsome]
  simp only
  obtain ⟨pre, post, hs⟩ := List.append_of_mem he
  obtain ⟨g0, g⟩ := nnEntries_mem top r.sized (distancesOf r s.opened) s.opened 0 s.maxNear
  refine ⟨g0, le_trans ?_ (g pre e post hs).2⟩
  have hR := reads_kernel (P := fun x y => T x y = m) (U := U) (m := m) (top := top) (r := r)
    (fun a b hU s1 s2 => ⟨le_trans (hm _ _ hU) (hr a b hU s1 s2).1, fun h h' => le_of_eq (((hr a b hU s1 s2).2 h).trans h')⟩)
    s.opened
  refine entryMin_ge (P := fun x y => T x y = m) (U := U) ?_ hg
  rw [hs] at hR ⊢
  have hf : flatPairs (pre ++ e :: post) = flatPairs pre ++ (e.cands.flatMap (·.pairs) ++ flatPairs post) := by
    unfold flatPairs
    rw [List.flatMap_append, List.flatMap_cons]
  rw [hf] at hR
  exact reads_left (reads_right hR)

/-- C52 counterexample: in the example above the nearest distance is 6, the reported maximum is 7, the estimate
of the coarse level. -/
theorem C52_counterexample :
    (nearestNeighbor [50, 100] exRounds [mbbNN Fp.exact exTile exW1 exIds]).maxNear = ((7 : ℚ) : WithTop ℚ) := by
  decide +kernel

/-! ## C41 -/

/-- Specification: some voxel pair of the entry was found to intersect, in this round or before. -/
def Found (hit : Voxel → Voxel → Bool) (e : Entry) : Prop :=
  ∃ c ∈ e.cands, ∃ x ∈ c.pairs, x.intersect = true ∨ hit x.v1 x.v2 = true

theorem clean_iff (hit : Voxel → Voxel → Bool) (e : Entry) : clean hit e = true ↔ ¬ Found hit e := by
  unfold clean Found
  simp only [List.all_eq_true, Bool.and_eq_true, Bool.not_eq_true', not_exists, not_and, not_or, Bool.not_eq_true]

/-- C41, one round: an entry remains, unchanged, iff none of its pairs is marked or hit by the kernel; pairs of
other entries play no role. -/
theorem C41_round (hit : Voxel → Voxel → Bool) (es : List Entry) (e : Entry) :
    e ∈ intersectRound hit es ↔ e ∈ es ∧ ¬ Found hit e := by
  rw [intersectRound_eq]
  split
  · next h =>
    rw [List.length_eq_zero_iff] at h
    constructor
    · intro he
      refine ⟨he, ?_⟩
      rintro ⟨c, hc, x, hx, _⟩
      have : x ∈ flatPairs es := List.mem_flatMap.2 ⟨e, he, List.mem_flatMap.2 ⟨c, hc, hx⟩⟩
      rw [h] at this; simp at this
    · exact fun h => h.1
  · rw [List.mem_filter, clean_iff]

/-- C41, all rounds: starting without marks, exactly the entries of which no pair is hit at any level remain,
in their order. -/
theorem C41_rounds (hits : List (Voxel → Voxel → Bool)) (es : List Entry)
    (h0 : ∀ e ∈ es, ∀ c ∈ e.cands, ∀ x ∈ c.pairs, x.intersect = false) :
    (hits.foldl (fun es hit => intersectRound hit es) es).Sublist es ∧
    ∀ e, e ∈ hits.foldl (fun es hit => intersectRound hit es) es ↔
      e ∈ es ∧ ∀ hit ∈ hits, ∀ c ∈ e.cands, ∀ x ∈ c.pairs, hit x.v1 x.v2 = false := by
  induction hits generalizing es with
  | nil => exact ⟨List.Sublist.refl _, by simp⟩
  | cons hit hits ih =>
    have hsub : (intersectRound hit es).Sublist es := by
      rw [intersectRound_eq]
      split
      · exact List.Sublist.refl _
      · exact List.filter_sublist
    obtain ⟨a, b⟩ := ih (intersectRound hit es) (fun e he => h0 e (hsub.subset he))
    simp only [List.foldl_cons]
    refine ⟨a.trans hsub, ?_⟩
    intro e
    rw [b e, C41_round]
    constructor
    · rintro ⟨⟨he, hn⟩, h⟩
      refine ⟨he, ?_⟩
      intro g hg
      rcases List.mem_cons.1 hg with rfl | hg
      · intro c hc x hx
        cases hh : g x.v1 x.v2 with
        | false => rfl
        | true => exact absurd ⟨c, hc, x, hx, Or.inr hh⟩ hn
      · exact h g hg
    · rintro ⟨he, h⟩
      refine ⟨⟨he, ?_⟩, fun g hg => h g (List.mem_cons_of_mem _ hg)⟩
      rintro ⟨c, hc, x, hx, hor⟩
      rw [h0 e he c hc x hx, h hit (List.mem_cons_self ..) c hc x hx] at hor
      simp at hor

/-- Two entries; the kernel hits only the second's second candidate: the first stays. -/
example :
    let vx : Nat → Voxel := fun a => ⟨a, cube 0 1⟩
    let pr : Nat → Nat → VPair := fun a b => ⟨vx a, vx b, ⟨0, 0⟩, false⟩
    let es : List Entry := [⟨exW1, [⟨exTile 1, ⟨0, 0⟩, [pr 1 2, pr 1 3]⟩]⟩,
      ⟨exTile 1, [⟨exW1, ⟨0, 0⟩, [pr 4 5]⟩, ⟨exTile 2, ⟨0, 0⟩, [pr 4 6, pr 4 7]⟩]⟩]
    (intersectRound (fun a b => a.addr == 4 && b.addr == 7) es).map (·.mesh.id) = [0] := by decide +kernel

/-! ## C53 -/

theorem withinPairs_mem (F : Fp) (D : ℚ) : ∀ (ps : List (Voxel × Voxel)),
    (withinPairs F D ps = none ∧ ∃ p ∈ ps, (p.1.box.distance F p.2.box).maxdist ≤ D ∧
      (p.1.box.distance F p.2.box).mindist ≤ D) ∨
    ∃ l, withinPairs F D ps = some l ∧ (∀ x ∈ l, x.intersect = false ∧ x.dist = x.v1.box.distance F x.v2.box) ∧
      (∀ a b, (∃ x ∈ l, x.v1 = a ∧ x.v2 = b) ↔ (a, b) ∈ ps ∧ (a.box.distance F b.box).mindist ≤ D) ∧
      ∀ p ∈ ps, (p.1.box.distance F p.2.box).mindist ≤ D → D < (p.1.box.distance F p.2.box).maxdist
  | [] => Or.inr ⟨[], rfl, by simp, by simp, by simp⟩
  | p :: ps => by
      unfold withinPairs
      simp only
      by_cases h1 : (p.1.box.distance F p.2.box).mindist > D
      · rw [if_pos h1]
        rcases withinPairs_mem F D ps with ⟨a, q, hq, h⟩ | ⟨l, hl, h2, h3, h4⟩
        · exact Or.inl ⟨a, q, List.mem_cons_of_mem _ hq, h⟩
        · refine Or.inr ⟨l, hl, h2, ?_, ?_⟩
          swap
          · intro q hq hm
            rcases List.mem_cons.1 hq with rfl | hq
            · exact absurd hm (not_le.2 h1)
            · exact h4 q hq hm
          intro a b
          rw [h3 a b, List.mem_cons]
          constructor
          · rintro ⟨x, y⟩; exact ⟨Or.inr x, y⟩
          · rintro ⟨rfl | x, y⟩
            · exact absurd y (not_le.2 h1)
            · exact ⟨x, y⟩
      · rw [if_neg h1]
        by_cases h2 : (p.1.box.distance F p.2.box).maxdist ≤ D
        · rw [if_pos h2]
          exact Or.inl ⟨rfl, p, List.mem_cons_self .., h2, not_lt.1 h1⟩
        · rw [if_neg h2]
          rcases withinPairs_mem F D ps with ⟨a, q, hq, h⟩ | ⟨l, hl, h3, h4, h5⟩
          · refine Or.inl ⟨by rw [a]; rfl, q, List.mem_cons_of_mem _ hq, h⟩
          · refine Or.inr ⟨_, by rw [hl]; rfl, ?_, ?_, ?_⟩
            rotate_left 2
            · intro q hq hm
              rcases List.mem_cons.1 hq with rfl | hq
              · exact not_le.1 h2
              · exact h5 q hq hm
            · intro x hx
              rcases List.mem_cons.1 hx with rfl | hx
              · exact ⟨rfl, rfl⟩
              · exact h3 x hx
            · intro a b
              simp only [List.mem_cons, exists_eq_or_imp, h4 a b]
              constructor
              · rintro (⟨rfl, rfl⟩ | ⟨x, y⟩)
                · exact ⟨Or.inl rfl, not_lt.1 h1⟩
                · exact ⟨Or.inr x, y⟩
              · rintro ⟨h | x, y⟩
                · exact Or.inl ⟨by rw [← h], by rw [← h]⟩
                · exact Or.inr ⟨x, y⟩

/-- C53. Filtering of the within join, for one object and one limit `D`. An index result is dropped only when the
boxes decide it: some voxel pair is at most `D` apart by its range, or every pair is farther by its range. Otherwise
it is listed, once, in increasing order, with exactly the voxel pairs whose range reaches down to `D`. When the
ranges are right, "decided" is right and no pair within the limit is missing from a listed candidate. -/
theorem C53_within_filter (F : Fp) (D : ℚ) (tile2 : Int → Wrapper) (hid : ∀ i, (tile2 i).id = i) (w1 : Wrapper)
    (ids0 ids : List (Int × Range)) (hsort : SortedBy Prod.fst ids0 ids) (hpos : ∀ p ∈ ids0, 0 ≤ p.1)
    (T : Voxel → Voxel → ℚ)
    (hbox : ∀ p ∈ ids0, ∀ v1 ∈ w1.voxels, ∀ v2 ∈ (tile2 p.1).voxels,
      (v1.box.distance F v2.box).mindist ≤ T v1 v2 ∧ T v1 v2 ≤ (v1.box.distance F v2.box).maxdist) :
    ((mbbWithin F D tile2 w1 ids).cands.map (·.mesh.id)).Pairwise (· < ·) ∧
    ∀ p ∈ ids0,
      ((∃ c ∈ (mbbWithin F D tile2 w1 ids).cands, c.mesh = tile2 p.1 ∧ (∀ x ∈ c.pairs, x.intersect = false) ∧
        (∀ v1 v2, (∃ x ∈ c.pairs, x.v1 = v1 ∧ x.v2 = v2) ↔
          v1 ∈ w1.voxels ∧ v2 ∈ (tile2 p.1).voxels ∧ (v1.box.distance F v2.box).mindist ≤ D) ∧
        ∀ v1 ∈ w1.voxels, ∀ v2 ∈ (tile2 p.1).voxels, T v1 v2 ≤ D → ∃ x ∈ c.pairs, x.v1 = v1 ∧ x.v2 = v2) ∧
        (∃ v1 ∈ w1.voxels, ∃ v2 ∈ (tile2 p.1).voxels, (v1.box.distance F v2.box).mindist ≤ D) ∧
        (∀ v1 ∈ w1.voxels, ∀ v2 ∈ (tile2 p.1).voxels, (v1.box.distance F v2.box).mindist ≤ D →
          D < (v1.box.distance F v2.box).maxdist)) ∨
      (p.1 ∉ (mbbWithin F D tile2 w1 ids).cands.map (·.mesh.id) ∧
        ∃ v1 ∈ w1.voxels, ∃ v2 ∈ (tile2 p.1).voxels, (v1.box.distance F v2.box).maxdist ≤ D ∧ T v1 v2 ≤ D) ∨
      (p.1 ∉ (mbbWithin F D tile2 w1 ids).cands.map (·.mesh.id) ∧
        ∀ v1 ∈ w1.voxels, ∀ v2 ∈ (tile2 p.1).voxels, D < (v1.box.distance F v2.box).mindist ∧ D < T v1 v2) := by
  obtain ⟨k1, k2, k3⟩ := C24_once_in_order Prod.fst ids0 ids hsort hpos
  have hvp : ∀ w2 q, q ∈ voxelPairs w1 w2 ↔ q.1 ∈ w1.voxels ∧ q.2 ∈ w2.voxels := by
    intro w2 q
    unfold voxelPairs
    simp only [List.mem_flatMap, List.mem_map]
    constructor
    · rintro ⟨x, hx, y, hy, rfl⟩; exact ⟨hx, hy⟩
    · rintro ⟨hx, hy⟩; exact ⟨_, hx, _, hy, rfl⟩
  have aux : ∀ (p : Int × Range) (c : Cand),
      (match withinPairs F D (voxelPairs w1 (tile2 p.1)) with
        | none => none
        | some [] => none
        | some (x :: xs) => some (⟨tile2 p.1, ⟨0, 0⟩, x :: xs⟩ : Cand)) = some c →
      c.mesh.id = p.1 ∧ ∃ x xs, withinPairs F D (voxelPairs w1 (tile2 p.1)) = some (x :: xs) := by
    intro p c h
    split at h
    · simp at h
    · simp at h
    · next x xs hx => injection h with h; subst h; exact ⟨hid _, x, xs, hx⟩
  have hlisted : ∀ i, i ∈ (mbbWithin F D tile2 w1 ids).cands.map (·.mesh.id) →
      ∃ x xs, withinPairs F D (voxelPairs w1 (tile2 i)) = some (x :: xs) := by
    intro i hi
    unfold mbbWithin at hi
    simp only [List.mem_map, List.mem_filterMap] at hi
    obtain ⟨c, ⟨r, hr, hc⟩, rfl⟩ := hi
    obtain ⟨h1, h2⟩ := aux r c hc
    rw [h1]; exact h2
  constructor
  · unfold mbbWithin
    simp only
    rw [List.pairwise_map] at k1 ⊢
    rw [List.pairwise_filterMap]
    refine k1.imp ?_
    intro a b hab c hc d hd
    rw [(aux a c hc).1, (aux b d hd).1]
    exact hab
  · intro p hp
    obtain ⟨r, hr, hrp⟩ := List.mem_map.1 ((k2 p.1).2 (List.mem_map.2 ⟨p, hp, rfl⟩))
    rcases withinPairs_mem F D (voxelPairs w1 (tile2 p.1)) with ⟨hn, q, hq, h, _⟩ | ⟨l, hl, h2, h3, h4⟩
    · right; left
      obtain ⟨q1, q2⟩ := (hvp _ q).1 hq
      refine ⟨?_, _, q1, _, q2, h, le_trans (hbox p hp _ q1 _ q2).2 h⟩
      intro hc
      obtain ⟨x, xs, hx⟩ := hlisted _ hc
      rw [hn] at hx; simp at hx
    · cases l with
      | nil =>
        right; right
        refine ⟨?_, ?_⟩
        · intro hc
          obtain ⟨x, xs, hx⟩ := hlisted _ hc
          rw [hl] at hx; simp at hx
        · intro v1 h1 v2 h2
          have : D < (v1.box.distance F v2.box).mindist := by
            by_contra hle
            have := (h3 v1 v2).2 ⟨(hvp _ _).2 ⟨h1, h2⟩, not_lt.1 hle⟩
            simp at this
          exact ⟨this, lt_of_lt_of_le this (hbox p hp _ h1 _ h2).1⟩
      | cons x xs =>
        left
        refine ⟨⟨⟨tile2 p.1, ⟨0, 0⟩, x :: xs⟩, ?_, rfl, fun y hy => (h2 y hy).1, ?_, ?_⟩, ?_, ?_⟩
        · unfold mbbWithin
          simp only [List.mem_filterMap]
          refine ⟨r, hr, ?_⟩
          rw [hrp, hl]
        · intro v1 v2
          rw [h3 v1 v2, hvp]
          exact and_assoc
        · intro v1 h1 v2 h2 hT
          exact (h3 v1 v2).2 ⟨(hvp _ _).2 ⟨h1, h2⟩, le_trans (hbox p hp _ h1 _ h2).1 hT⟩
        · obtain ⟨a, b⟩ := (h3 x.v1 x.v2).1 ⟨x, List.mem_cons_self .., rfl, rfl⟩
          obtain ⟨a1, a2⟩ := (hvp _ _).1 a
          exact ⟨_, a1, _, a2, b⟩
        · intro v1 h1 v2 h2 h5
          exact h4 (v1, v2) ((hvp _ _).2 ⟨h1, h2⟩) h5

/-- Limit 10: candidate 1 has range [3,12] and stays; limit 12: it is decided, candidate 2 (range [3,75/4]) stays;
limit 2: both are too far. -/
example : (mbbWithin Fp.exact 10 exTile exW1 exIds).cands.map (·.mesh.id) = [1, 2] ∧
    (mbbWithin Fp.exact 12 exTile exW1 exIds).cands.map (·.mesh.id) = [2] ∧
    (mbbWithin Fp.exact 2 exTile exW1 exIds).cands.map (·.mesh.id) = [] := by decide +kernel

/-! ## C40 -/

/-- C40 (partial). If in every entry only the last candidate is found within the distance in this round, each
voxel pair is left alone or updated with the distance computed for that same pair, and an entry is afterwards
marked for removal iff one of its own pairs was marked before or is found within the distance now. Missing:
entries in which an earlier candidate is found (see the counterexample). -/
theorem C40_own_distance_partial (top : Bool) (D : ℚ) (r : Round) (es : List Entry)
    (honly : ∀ e ∈ es, ∀ c ∈ e.cands.dropLast, ∀ x ∈ c.pairs, r.size x.v1 > 0 → r.size x.v2 > 0 →
      D ≤ (refine top x.dist (r.kernel x.v1 x.v2)).maxdist) :
    List.Forall₂ (fun e e' => e'.mesh = e.mesh ∧
      List.Forall₂ (fun c c' => c'.mesh = c.mesh ∧
        List.Forall₂ (fun x x' => x'.v1 = x.v1 ∧ x'.v2 = x.v2 ∧
          (x' = x ∨ x'.dist = refine top x.dist (r.kernel x.v1 x.v2))) c.pairs c'.pairs) e.cands e'.cands ∧
      ((∃ c ∈ e'.cands, ∃ x ∈ c.pairs, x.intersect = true) ↔
        ∃ c ∈ e.cands, ∃ x ∈ c.pairs, x.intersect = true ∨ (r.size x.v1 > 0 ∧ r.size x.v2 > 0 ∧
          (refine top x.dist (r.kernel x.v1 x.v2)).maxdist < D)))
      es (wiEntries top D r.sized (distancesOf r es) 0 es) := by
  have h := wiEntries_spec top D r (distancesOf r es) es 0 (fun k p h _ => by rw [Nat.zero_add]; exact distancesOf_aligned r es k p h) (by
    intro e he c hc x hx
    simp only [wiHit, Round.sized]
    by_cases h1 : r.size x.v1 > 0
    · by_cases h2 : r.size x.v2 > 0
      · have := honly e he c hc x hx h1 h2
        simp [not_lt.2 this]
      · simp [h2]
    · simp [h1])
  refine List.Forall₂.imp ?_ h
  rintro e e' ⟨a, b, c⟩
  refine ⟨a, ?_, ?_⟩
  · refine List.Forall₂.imp ?_ b
    rintro c c' ⟨x, _, z⟩
    refine ⟨x, List.Forall₂.imp ?_ z⟩
    rintro y y' (rfl | ⟨_, rfl⟩)
    · exact ⟨rfl, rfl, Or.inl rfl⟩
    · exact ⟨rfl, rfl, Or.inr rfl⟩
  · rw [Bool.eq_iff_iff] at c
    simp only [List.any_eq_true, Bool.or_eq_true, wiHit, Round.sized, Bool.and_eq_true, decide_eq_true_eq] at c
    rw [c]
    constructor
    · rintro ⟨c, hc, ⟨x, hx, h⟩ | ⟨x, hx, h⟩⟩
      · exact ⟨c, hc, x, hx, Or.inl h⟩
      · exact ⟨c, hc, x, hx, Or.inr ⟨h.1.1, h.1.2, h.2⟩⟩
    · rintro ⟨c, hc, x, hx, h | h⟩
      · exact ⟨c, hc, Or.inl ⟨x, hx, h⟩⟩
      · exact ⟨c, hc, Or.inr ⟨x, hx, ⟨h.1, h.2.1⟩, h.2.2⟩⟩

section C40
/-- Voxel pairs of the counterexample. -/
def c40pair (a b : Nat) : VPair := ⟨⟨a, cube 0 1⟩, ⟨b, cube 0 1⟩, ⟨0, 100⟩, false⟩
/-- Two objects; the first has two candidates, the second one. -/
def c40es : List Entry :=
  [⟨exW1, [⟨exTile 1, ⟨0, 0⟩, [c40pair 1 2]⟩, ⟨exTile 2, ⟨0, 0⟩, [c40pair 1 3]⟩]⟩,
   ⟨exTile 5, [⟨exTile 1, ⟨0, 0⟩, [c40pair 4 2]⟩]⟩]
/-- True (and computed) distances: 1-2 is 5, 1-3 is 6, 4-2 is 90. -/
def c40round : Round := ⟨fun _ => 1, fun a b => if a.addr = 4 then 90 else if b.addr = 2 then 5 else 6⟩

/-- C40 counterexample (limit 10). The pair 4-2, at distance 90, is given the distance 6 of the pair 1-3 ... -/
theorem C40_counterexample_distance :
    ((flatPairs (wiEntries true 10 c40round.sized (distancesOf c40round c40es) 0 c40es)).map
      (fun x => (x.v1.addr, x.v2.addr, x.dist))) =
    [(1, 2, ⟨5, 5⟩), (1, 3, ⟨0, 100⟩), (4, 2, ⟨6, 6⟩)] := by decide +kernel

/-- ... so the second object, with nothing within the limit, is taken for done and removed. -/
theorem C40_counterexample_removed : (wiRound true 10 c40round c40es).length = 0 := by decide +kernel

/-- The hypothesis of the partial theorem holds, with a hit in the last candidate of the first object, for the
limit 6 and the candidates swapped. -/
example :
    let es : List Entry := [⟨exW1, [⟨exTile 2, ⟨0, 0⟩, [c40pair 1 3]⟩, ⟨exTile 1, ⟨0, 0⟩, [c40pair 1 2]⟩]⟩,
      ⟨exTile 5, [⟨exTile 1, ⟨0, 0⟩, [c40pair 4 2]⟩]⟩]
    (∀ e ∈ es, ∀ c ∈ e.cands.dropLast, ∀ x ∈ c.pairs, c40round.size x.v1 > 0 → c40round.size x.v2 > 0 →
      6 ≤ (refine true x.dist (c40round.kernel x.v1 x.v2)).maxdist) ∧
    (wiRound true 6 c40round es).map (·.mesh.id) = [5] := by
  refine ⟨?_, by decide +kernel⟩
  simp [c40pair, c40round, refine]
end C40

end TDP.Join
