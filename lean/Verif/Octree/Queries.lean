import Verif.Octree.Lemmas
/-! Soundness and completeness of the octree queries. -/
namespace TDP.Octree
open TDP.Boxes

section Order
variable {α : Type} [LinearOrder α]

theorem queryIntersect_sound (mid : α → α → α) (q : Obj α) (t : Node α) : ∀ L, Holds mid t L →
    ∀ x ∈ queryIntersect q t, ∃ o ∈ L, o.ptr ≠ q.ptr ∧ o.id = x ∧ o.box.intersect q.box = true := by
  induction t with
  | leaf b size can objs =>
    rintro L ⟨rfl, _⟩ x hx
    rw [queryIntersect] at hx
    split at hx
    · obtain ⟨o, ho, rfl⟩ := List.mem_map.mp hx
      obtain ⟨h1, h2⟩ := List.mem_filter.mp ho
      rw [Bool.and_eq_true] at h2
      exact ⟨o, h1, by simpa using h2.1, rfl, h2.2⟩
    · cases hx
  | inner b size lost c ih =>
    rintro L ⟨_, _, hch⟩ x hx
    rw [queryIntersect] at hx
    split at hx
    · obtain ⟨i, _, hi⟩ := List.mem_flatMap.mp hx
      obtain ⟨o, h1, h2⟩ := ih i _ (hch i).2 x hi
      exact ⟨o, (List.mem_filter.mp h1).1, h2⟩
    · cases hx

theorem queryIntersect_complete (mid : α → α → α) (q : Obj α) (hq : q.box.Solid) (o : Obj α) (ho : o.box.Solid)
    (hoq : o.box.intersect q.box = true) (hp : o.ptr ≠ q.ptr) (t : Node α) : ∀ L, Holds mid t L → o ∈ L →
    t.box.intersect o.box = true → t.box.intersect q.box = true → o.id ∈ queryIntersect q t := by
  induction t with
  | leaf b size can objs =>
    rintro L ⟨rfl, _⟩ hL hbo hbq
    rw [Node.box] at hbq
    rw [queryIntersect, if_pos hbq]
    exact List.mem_map.mpr ⟨o, List.mem_filter.mpr ⟨hL, by simp [hp, hoq]⟩, rfl⟩
  | inner b size lost c ih =>
    rintro L ⟨_, _, hch⟩ hL hbo hbq
    rw [Node.box] at hbo hbq
    rw [queryIntersect, if_pos hbq]
    obtain ⟨i, h1, h2⟩ := octant_region mid b o.box q.box ho hoq hbo hbq hq
    refine List.mem_flatMap.mpr ⟨i, List.mem_finRange i, ?_⟩
    obtain ⟨a1, a2⟩ := hch i
    exact ih i _ a2 (List.mem_filter.mpr ⟨hL, h1⟩) (by rw [a1]; exact h1) (by rw [a1]; exact h2)

/-- The leaves of a tree: box and objects. -/
def leaves : Node α → List (Box α × List (Obj α))
  | .leaf b _ _ objs => [(b, objs)]
  | .inner _ _ _ c => (List.finRange 8).flatMap (fun i => leaves (c i))

theorem genTiles_eq (t : Node α) : genTiles t = ((leaves t).filter (fun l => decide (l.2.length > 0))).map (·.1) := by
  induction t with
  | leaf b size can objs =>
    rw [genTiles, leaves]
    by_cases h : objs.length > 0
    · rw [if_pos h, List.filter_cons_of_pos (by simpa using h)]; rfl
    · rw [if_neg h, List.filter_cons_of_neg (by simpa using h)]; rfl
  | inner b size lost c ih =>
    rw [genTiles, leaves, List.filter_flatMap, List.map_flatMap]
    congr 1
    funext i
    exact ih i

/-- Every point of a stored object is in a leaf that stores the object. -/
theorem leaf_of_point (mid : α → α → α) (o : Obj α) (ho : o.box.Solid) (p : Pt α) (hp : o.box.Mem p) (t : Node α) :
    ∀ L, Holds mid t L → o ∈ L → t.box.intersect o.box = true → t.box.Mem p →
      ∃ l ∈ leaves t, l.1.Mem p ∧ o ∈ l.2 := by
  induction t with
  | leaf b size can objs =>
    rintro L ⟨rfl, _⟩ hL _ hb
    exact ⟨(b, objs), by simp [leaves], hb, hL⟩
  | inner b size lost c ih =>
    rintro L ⟨_, _, hch⟩ hL hbo hb
    obtain ⟨i, h1, h2⟩ := octant_point mid b o.box p ho hb hp hbo
    obtain ⟨a1, a2⟩ := hch i
    obtain ⟨l, hl, h3⟩ := ih i _ a2 (List.mem_filter.mpr ⟨hL, h2⟩) (by rw [a1]; exact h2) (by rw [a1]; exact h1)
    exact ⟨l, by rw [leaves]; exact List.mem_flatMap.mpr ⟨i, List.mem_finRange i, hl⟩, h3⟩

theorem octant_le (mid : α → α → α) (hmid : ∀ x y, x ≤ y → x ≤ mid x y ∧ mid x y ≤ y) (b : Box α) (hb : b.Valid)
    (i : Fin 8) : (octant mid b i).Le b ∧ (octant mid b i).Valid := by
  have key : ∀ a, (b.min a ≤ (octant mid b i).min a ∧ (octant mid b i).max a ≤ b.max a) ∧
      (octant mid b i).min a ≤ (octant mid b i).max a := by
    intro a
    obtain ⟨h1, h2⟩ := hmid _ _ (hb a)
    unfold octant
    simp only
    split
    · exact ⟨⟨h1, le_rfl⟩, h2⟩
    · exact ⟨⟨le_rfl, h2⟩, h1⟩
  exact ⟨fun a => (key a).1, fun a => (key a).2⟩

/-- With mid points in the middle, a leaf stores exactly the objects it meets. -/
theorem leaf_objects (mid : α → α → α) (hmid : ∀ x y, x ≤ y → x ≤ mid x y ∧ mid x y ≤ y) (t : Node α) :
    ∀ L, Holds mid t L → t.box.Valid → (∀ o ∈ L, t.box.intersect o.box = true) →
      ∀ l ∈ leaves t, l.1.Le t.box ∧ l.2 = L.filter (fun o => l.1.intersect o.box) := by
  induction t with
  | leaf b size can objs =>
    rintro L ⟨rfl, _⟩ hb hL l hl
    simp only [leaves, List.mem_singleton] at hl
    subst hl
    refine ⟨Box.Le.refl _, ?_⟩
    exact (List.filter_eq_self.mpr hL).symm
  | inner b size lost c ih =>
    rintro L ⟨_, _, hch⟩ hb hL l hl
    rw [leaves] at hl
    obtain ⟨i, _, hi⟩ := List.mem_flatMap.mp hl
    obtain ⟨a1, a2⟩ := hch i
    obtain ⟨o1, o2⟩ := octant_le mid hmid b hb i
    obtain ⟨k1, k2⟩ := ih i _ a2 (by rw [a1]; exact o2) (by
      intro o ho
      rw [a1]
      exact (List.mem_filter.mp ho).2) l hi
    rw [a1] at k1
    refine ⟨Box.Le.trans k1 o1, ?_⟩
    rw [k2, List.filter_filter]
    apply List.filter_congr
    intro o _
    by_cases h : l.1.intersect o.box = true
    · simp [h, intersect_mono k1 h]
    · simp [h]

end Order

section Dist
variable (F : Fp)

/-- The point of `o` closest to `q`. -/
def closest (o q : Box ℚ) : Pt ℚ := fun i =>
  if o.max i < q.min i then o.max i else if q.max i < o.min i then o.min i else max (o.min i) (q.min i)

theorem closest_mem (o q : Box ℚ) (ho : o.Valid) : o.Mem (closest o q) := by
  intro i
  unfold closest
  split
  · exact ⟨ho i, le_rfl⟩
  · split
    · exact ⟨le_rfl, ho i⟩
    · exact ⟨le_max_left _ _, max_le (ho i) (by linarith)⟩

theorem closest_gap (o q : Box ℚ) (ho : o.Valid) (hq : q.Valid) (i : Fin 3) :
    gap F ⟨closest o q, closest o q⟩ q i ≤ gap F o q i := by
  have hz := F.zero
  unfold closest
  by_cases h1 : o.max i < q.min i
  · unfold gap
    simp only [if_pos h1]
    have ht : F.rnd (o.max i - q.min i) ≤ 0 := F.nonpos (by linarith)
    by_cases h2 : F.rnd (o.max i - q.min i) < 0
    · rw [if_pos h2, if_pos h2]
    · rw [if_neg h2, if_neg h2]
      have h3 : F.rnd (o.max i - q.max i) ≤ 0 := F.nonpos (by linarith [hq i])
      have h4 : F.rnd (o.min i - q.max i) ≤ 0 := F.nonpos (by linarith [hq i, ho i])
      rw [if_neg (by linarith), if_neg (by linarith)]
  · by_cases h2 : q.max i < o.min i
    · unfold gap
      simp only [if_neg h1, if_pos h2]
      have h3 : 0 ≤ F.rnd (o.min i - q.min i) := F.nonneg (by linarith [hq i])
      have h4 : 0 ≤ F.rnd (o.max i - q.min i) := F.nonneg (by linarith)
      rw [if_neg (show ¬ F.rnd (o.min i - q.min i) < 0 by linarith),
        if_neg (show ¬ F.rnd (o.max i - q.min i) < 0 by linarith)]
    · refine le_trans (le_of_eq ?_) (gap_nonneg F o q i)
      unfold gap
      simp only [if_neg h1, if_neg h2]
      have h3 : 0 ≤ F.rnd (max (o.min i) (q.min i) - q.min i) := F.nonneg (by linarith [le_max_right (o.min i) (q.min i)])
      have h4 : F.rnd (max (o.min i) (q.min i) - q.max i) ≤ 0 := F.nonpos (by
        have := max_le (not_lt.mp h2) (hq i); linarith)
      rw [if_neg (by linarith), if_neg (by linarith)]

/-- A node that contains the closest point of the object is at most as far. -/
theorem node_mindist_le (b o q : Box ℚ) (ho : o.Valid) (hq : q.Valid) (hb : b.Mem (closest o q)) :
    (b.distance F q).mindist ≤ (o.distance F q).mindist := by
  refine le_trans (distance_anti F (a := b) (a' := ⟨closest o q, closest o q⟩) (b := q) (b' := q) (fun i => hb i)
    (Box.Le.refl q) (fun _ => le_rfl) hq) ?_
  rw [mindist_eq, mindist_eq]
  exact sum3_mono F (closest_gap F o q ho hq)

theorem Solid.valid {b : Box ℚ} (h : b.Solid) : b.Valid := fun i => le_of_lt (h i)

theorem queryWithin_sound (mid : ℚ → ℚ → ℚ) (q : Obj ℚ) (D : ℚ) (t : Node ℚ) : ∀ L, Holds mid t L →
    ∀ x ∈ queryWithin F q D t, ∃ o ∈ L, o.ptr ≠ q.ptr ∧ x = (o.id, o.box.distance F q.box) ∧
      (o.box.distance F q.box).mindist ≤ D := by
  induction t with
  | leaf b size can objs =>
    rintro L ⟨rfl, _⟩ x hx
    rw [queryWithin] at hx
    split at hx
    · obtain ⟨o, ho, rfl⟩ := List.mem_map.mp hx
      obtain ⟨h1, h2⟩ := List.mem_filter.mp ho
      rw [Bool.and_eq_true, decide_eq_true_iff] at h2
      exact ⟨o, h1, by simpa using h2.1, rfl, h2.2⟩
    · cases hx
  | inner b size lost c ih =>
    rintro L ⟨_, _, hch⟩ x hx
    rw [queryWithin] at hx
    split at hx
    · obtain ⟨i, _, hi⟩ := List.mem_flatMap.mp hx
      obtain ⟨o, h1, h2⟩ := ih i _ (hch i).2 x hi
      exact ⟨o, (List.mem_filter.mp h1).1, h2⟩
    · cases hx

theorem queryWithin_complete (mid : ℚ → ℚ → ℚ) (q : Obj ℚ) (hq : q.box.Valid) (D : ℚ) (o : Obj ℚ) (ho : o.box.Solid)
    (hD : (o.box.distance F q.box).mindist ≤ D) (hp : o.ptr ≠ q.ptr) (t : Node ℚ) : ∀ L, Holds mid t L → o ∈ L →
    t.box.intersect o.box = true → t.box.Mem (closest o.box q.box) →
    (o.id, o.box.distance F q.box) ∈ queryWithin F q D t := by
  induction t with
  | leaf b size can objs =>
    rintro L ⟨rfl, _⟩ hL hbo hb
    rw [queryWithin, if_pos (le_trans (node_mindist_le F b o.box q.box (Solid.valid ho) hq hb) hD)]
    exact List.mem_map.mpr ⟨o, List.mem_filter.mpr ⟨hL, by simp [hp, hD]⟩, rfl⟩
  | inner b size lost c ih =>
    rintro L ⟨_, _, hch⟩ hL hbo hb
    rw [queryWithin, if_pos (le_trans (node_mindist_le F b o.box q.box (Solid.valid ho) hq hb) hD)]
    obtain ⟨i, h1, h2⟩ := octant_point mid b o.box _ ho hb (closest_mem o.box q.box (Solid.valid ho)) hbo
    obtain ⟨a1, a2⟩ := hch i
    refine List.mem_flatMap.mpr ⟨i, List.mem_finRange i, ?_⟩
    exact ih i _ a2 (List.mem_filter.mpr ⟨hL, h2⟩) (by rw [a1]; exact h2) (by rw [a1]; exact h1)

/-- What `update_distance_list` may do: remove entries that are `> d`; refuse `d` only if some entry is `< d`. -/
theorem updateLoop_spec (d : Range) (n i : Nat) (l : List (Int × Range)) (keep : Bool) :
    (∀ x ∈ (updateLoop d n i l keep).1, x ∈ l) ∧
    (∀ x ∈ l, x.2.gt d = false → x ∈ (updateLoop d n i l keep).1) ∧
    ((updateLoop d n i l keep).2 = false → keep = false ∨ ∃ x ∈ l, x.2.lt d = true) := by
  induction n generalizing i l keep with
  | zero => exact ⟨fun x h => h, fun x h _ => h, fun h => Or.inl h⟩
  | succ n ih =>
    rw [updateLoop]
    split
    · exact ⟨fun x h => h, fun x h _ => h, fun h => Or.inl h⟩
    · rename_i r hr
      have hrl : r ∈ l := List.mem_of_getElem? hr
      split
      · rename_i hlt
        obtain ⟨a1, a2, a3⟩ := ih (i + 2) l false
        exact ⟨a1, a2, fun _ => Or.inr ⟨r, hrl, hlt⟩⟩
      · split
        · rename_i hgt
          obtain ⟨a1, a2, a3⟩ := ih (i + 1) (l.eraseIdx i) keep
          refine ⟨fun x h => List.mem_of_mem_eraseIdx (a1 x h), ?_, ?_⟩
          · intro x hx hxg
            apply a2 x _ hxg
            rw [List.mem_eraseIdx_iff_getElem?]
            obtain ⟨k, hk⟩ := List.mem_iff_getElem?.mp hx
            refine ⟨k, ?_, hk⟩
            rintro rfl
            rw [hr] at hk
            injection hk with hk
            subst hk
            rw [hgt] at hxg
            cases hxg
          · intro h
            rcases a3 h with h1 | ⟨x, hx, hl⟩
            · exact Or.inl h1
            · exact Or.inr ⟨x, List.mem_of_mem_eraseIdx hx, hl⟩
        · exact ih (i + 2) l keep

/-- Invariant of the nearest-neighbour search over the objects `L`. -/
def NNInv (q : Obj ℚ) (L : List (Obj ℚ)) (st : List (Int × Range) × Option ℚ) : Prop :=
  (∀ x ∈ st.1, ∃ o ∈ L, o.ptr ≠ q.ptr ∧ x = (o.id, o.box.distance F q.box)) ∧
  (∀ m, st.2 = some m → ∃ o ∈ L, o.ptr ≠ q.ptr ∧ m = (o.box.distance F q.box).maxdist)

theorem nnStep_inv (q : Obj ℚ) (L : List (Obj ℚ)) (st : List (Int × Range) × Option ℚ) (v : Obj ℚ) (hv : v ∈ L)
    (h : NNInv F q L st) : NNInv F q L (nnStep F q st v) := by
  obtain ⟨h1, h2⟩ := h
  unfold nnStep
  split
  · exact ⟨h1, h2⟩
  · rename_i hne
    have hne : v.ptr ≠ q.ptr := by simpa using hne
    obtain ⟨u1, _, _⟩ := updateLoop_spec (v.box.distance F q.box) st.1.length 0 st.1 true
    simp only
    split
    · split
      · refine ⟨?_, ?_⟩
        · intro x hx
          rcases List.mem_append.mp hx with hx | hx
          · exact h1 x (u1 x hx)
          · exact ⟨v, hv, hne, List.mem_singleton.mp hx⟩
        · intro m hm
          simp only at hm
          split at hm
          · injection hm with hm; exact ⟨v, hv, hne, hm.symm⟩
          · rename_i m' hm'
            injection hm with hm
            split at hm
            · exact ⟨v, hv, hne, hm.symm⟩
            · rw [← hm]; exact h2 m' hm'
      · exact ⟨fun x hx => h1 x (u1 x hx), h2⟩
    · exact ⟨h1, h2⟩

theorem nnFold_inv (q : Obj ℚ) (L objs : List (Obj ℚ)) (hsub : ∀ v ∈ objs, v ∈ L)
    (st : List (Int × Range) × Option ℚ) (h : NNInv F q L st) : NNInv F q L (objs.foldl (nnStep F q) st) := by
  induction objs generalizing st with
  | nil => exact h
  | cons v objs ih =>
    exact ih (fun x hx => hsub x (List.mem_cons_of_mem _ hx)) _ (nnStep_inv F q L st v (hsub v List.mem_cons_self) h)

theorem queryNN_inv (mid : ℚ → ℚ → ℚ) (q : Obj ℚ) (L : List (Obj ℚ)) (t : Node ℚ) : ∀ M, Holds mid t M →
    (∀ v ∈ M, v ∈ L) → ∀ st, NNInv F q L st → NNInv F q L (queryNN F q t st) := by
  induction t with
  | leaf b size can objs =>
    rintro M ⟨rfl, _⟩ hM st h
    rw [queryNN]
    split
    · exact nnFold_inv F q L objs hM st h
    · exact h
  | inner b size lost c ih =>
    rintro M ⟨_, _, hch⟩ hM st h
    rw [queryNN]
    split
    · have : ∀ (is : List (Fin 8)) st, NNInv F q L st →
          NNInv F q L (is.foldl (fun st i => queryNN F q (c i) st) st) := by
        intro is
        induction is with
        | nil => intro st h; exact h
        | cons i is ihi =>
          intro st h
          exact ihi _ (ih i _ (hch i).2 (fun v hv => hM v (List.mem_filter.mp hv).1) st h)
      exact this _ st h
    · exact h

/-- The object that must not be lost: not farther than any other object can be. -/
def Possible (q : Obj ℚ) (L : List (Obj ℚ)) (o : Obj ℚ) : Prop :=
  o ∈ L ∧ o.ptr ≠ q.ptr ∧ ∀ v ∈ L, v.ptr ≠ q.ptr →
    (o.box.distance F q.box).mindist ≤ (v.box.distance F q.box).maxdist

theorem leMM_possible {q : Obj ℚ} {L : List (Obj ℚ)} {o : Obj ℚ} (hp : Possible F q L o) {st : List (Int × Range) × Option ℚ}
    (h : NNInv F q L st) {x : ℚ} (hx : x ≤ (o.box.distance F q.box).mindist) : leMM x st.2 = true := by
  cases hm : st.2 with
  | none => rfl
  | some m =>
    obtain ⟨v, hv, hne, e⟩ := h.2 m hm
    have := hp.2.2 v hv hne
    unfold leMM
    rw [decide_eq_true_iff, e]
    exact le_trans hx this

theorem nnStep_keeps {q : Obj ℚ} {L : List (Obj ℚ)} {o : Obj ℚ} (hp : Possible F q L o)
    (st : List (Int × Range) × Option ℚ) (v : Obj ℚ) (hv : v ∈ L)
    (hin : (o.id, o.box.distance F q.box) ∈ st.1) : (o.id, o.box.distance F q.box) ∈ (nnStep F q st v).1 := by
  unfold nnStep
  split
  · exact hin
  · rename_i hne
    have hne : v.ptr ≠ q.ptr := by simpa using hne
    obtain ⟨_, u2, _⟩ := updateLoop_spec (v.box.distance F q.box) st.1.length 0 st.1 true
    have hg : (o.box.distance F q.box).gt (v.box.distance F q.box) = false := by
      unfold Range.gt
      rw [decide_eq_false_iff_not]
      have := hp.2.2 v hv hne
      linarith
    have := u2 _ hin hg
    simp only
    split
    · split
      · exact List.mem_append_left _ this
      · exact this
    · exact hin

theorem nnStep_adds {q : Obj ℚ} {L : List (Obj ℚ)} {o : Obj ℚ} (hp : Possible F q L o)
    (st : List (Int × Range) × Option ℚ) (h : NNInv F q L st) :
    (o.id, o.box.distance F q.box) ∈ (nnStep F q st o).1 := by
  unfold nnStep
  rw [if_neg (by simpa using hp.2.1)]
  obtain ⟨_, _, u3⟩ := updateLoop_spec (o.box.distance F q.box) st.1.length 0 st.1 true
  simp only
  rw [if_pos (leMM_possible F hp h le_rfl), if_pos]
  · exact List.mem_append_right _ (by simp)
  · unfold updateDistanceList
    by_contra hc
    have hc : (updateLoop (o.box.distance F q.box) st.1.length 0 st.1 true).2 = false := by simpa using hc
    rcases u3 hc with h0 | ⟨x, hx, hl⟩
    · cases h0
    · obtain ⟨v, hv, hne, e⟩ := h.1 x hx
      rw [e] at hl
      unfold Range.lt at hl
      rw [decide_eq_true_iff] at hl
      have := hp.2.2 v hv hne
      simp only at hl
      linarith

theorem nnFold_complete {q : Obj ℚ} {L : List (Obj ℚ)} {o : Obj ℚ} (hp : Possible F q L o) (objs : List (Obj ℚ))
    (hsub : ∀ v ∈ objs, v ∈ L) (st : List (Int × Range) × Option ℚ) (h : NNInv F q L st) :
    ((o.id, o.box.distance F q.box) ∈ st.1 ∨ o ∈ objs) →
      (o.id, o.box.distance F q.box) ∈ (objs.foldl (nnStep F q) st).1 := by
  induction objs generalizing st with
  | nil => rintro (h1 | h1); exacts [h1, by cases h1]
  | cons v objs ih =>
    intro h1
    apply ih (fun x hx => hsub x (List.mem_cons_of_mem _ hx)) _ (nnStep_inv F q L st v (hsub v List.mem_cons_self) h)
    rcases h1 with h1 | h1
    · exact Or.inl (nnStep_keeps F hp st v (hsub v List.mem_cons_self) h1)
    · rcases List.mem_cons.mp h1 with rfl | h1
      · exact Or.inl (nnStep_adds F hp st h)
      · exact Or.inr h1

theorem queryNN_keeps (mid : ℚ → ℚ → ℚ) {q : Obj ℚ} {L : List (Obj ℚ)} {o : Obj ℚ} (hp : Possible F q L o) (t : Node ℚ) :
    ∀ M, Holds mid t M → (∀ v ∈ M, v ∈ L) → ∀ st, NNInv F q L st → (o.id, o.box.distance F q.box) ∈ st.1 →
      (o.id, o.box.distance F q.box) ∈ (queryNN F q t st).1 := by
  induction t with
  | leaf b size can objs =>
    rintro M ⟨rfl, _⟩ hM st h hin
    rw [queryNN]
    split
    · exact nnFold_complete F hp objs hM st h (Or.inl hin)
    · exact hin
  | inner b size lost c ih =>
    rintro M ⟨_, _, hch⟩ hM st h hin
    rw [queryNN]
    split
    · have : ∀ (is : List (Fin 8)) st, NNInv F q L st → (o.id, o.box.distance F q.box) ∈ st.1 →
          (o.id, o.box.distance F q.box) ∈ (is.foldl (fun st i => queryNN F q (c i) st) st).1 := by
        intro is
        induction is with
        | nil => intro st _ h; exact h
        | cons i is ihi =>
          intro st h hin
          have hsub : ∀ v ∈ M.filter (fun o => (octant mid b i).intersect o.box), v ∈ L :=
            fun v hv => hM v (List.mem_filter.mp hv).1
          exact ihi _ (queryNN_inv F mid q L (c i) _ (hch i).2 hsub st h) (ih i _ (hch i).2 hsub st h hin)
      exact this _ st h hin
    · exact hin

theorem queryNN_complete (mid : ℚ → ℚ → ℚ) {q : Obj ℚ} (hq : q.box.Valid) {L : List (Obj ℚ)} {o : Obj ℚ}
    (hp : Possible F q L o) (ho : o.box.Solid) (t : Node ℚ) :
    ∀ M, Holds mid t M → (∀ v ∈ M, v ∈ L) → o ∈ M → t.box.intersect o.box = true →
      t.box.Mem (closest o.box q.box) → ∀ st, NNInv F q L st →
      (o.id, o.box.distance F q.box) ∈ (queryNN F q t st).1 := by
  induction t with
  | leaf b size can objs =>
    rintro M ⟨rfl, _⟩ hM hoM hbo hb st h
    rw [queryNN, if_pos (leMM_possible F hp h (node_mindist_le F b o.box q.box (Solid.valid ho) hq hb))]
    exact nnFold_complete F hp objs hM st h (Or.inr hoM)
  | inner b size lost c ih =>
    rintro M ⟨_, _, hch⟩ hM hoM hbo hb st h
    rw [queryNN, if_pos (leMM_possible F hp h (node_mindist_le F b o.box q.box (Solid.valid ho) hq hb))]
    obtain ⟨j, h1, h2⟩ := octant_point mid b o.box _ ho hb (closest_mem o.box q.box (Solid.valid ho)) hbo
    have hsub : ∀ i, ∀ v ∈ M.filter (fun o => (octant mid b i).intersect o.box), v ∈ L :=
      fun i v hv => hM v (List.mem_filter.mp hv).1
    have : ∀ (is : List (Fin 8)) st, NNInv F q L st → ((o.id, o.box.distance F q.box) ∈ st.1 ∨ j ∈ is) →
        (o.id, o.box.distance F q.box) ∈ (is.foldl (fun st i => queryNN F q (c i) st) st).1 := by
      intro is
      induction is with
      | nil => rintro st _ (h | h); exacts [h, by cases h]
      | cons i is ihi =>
        intro st h hor
        apply ihi _ (queryNN_inv F mid q L (c i) _ (hch i).2 (hsub i) st h)
        rcases hor with hin | hin
        · exact Or.inl (queryNN_keeps F mid hp (c i) _ (hch i).2 (hsub i) st h hin)
        · rcases List.mem_cons.mp hin with rfl | hin
          · obtain ⟨a1, a2⟩ := hch j
            exact Or.inl (ih j _ a2 (hsub j) (List.mem_filter.mpr ⟨hoM, h2⟩) (by rw [a1]; exact h2)
              (by rw [a1]; exact h1) st h)
          · exact Or.inr hin
    exact this _ st h (Or.inr (List.mem_finRange j))

end Dist

end TDP.Octree
