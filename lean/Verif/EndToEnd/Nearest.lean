import Verif.EndToEnd.Distance
/-!
# Property C64: the nearest-neighbour join from the objects to the entries
-/
namespace TDP.EndToEnd
open TDP.Boxes TDP.Join TDP.Kernels TDP.Gpu

/-! ## All listed pairs are pairs of voxels of the tiles -/

/-- Every listed pair has property `Q`. -/
def AllP (Q : Voxel → Voxel → Prop) (cs : List Cand) : Prop := ∀ c ∈ cs, ∀ x ∈ c.pairs, Q x.v1 x.v2

theorem updCands_all {Q : Voxel → Voxel → Prop} (d : RangeT) : ∀ cs, AllP Q cs → AllP Q (updCands d cs).2
  | [], h => by simpa [updCands] using h
  | y :: ys, h => by
      have hy := h y (List.mem_cons_self ..)
      have ih := updCands_all d ys (fun c hc => h c (List.mem_cons_of_mem _ hc))
      have hsub : ∀ x ∈ (updPairs d y.pairs).2, Q x.v1 x.v2 := fun x hx => hy x ((updPairs_sublist d y.pairs).subset hx)
      unfold updCands
      by_cases h1 : d.gt y.distance = true
      · rw [if_pos h1]; exact h
      · rw [if_neg h1]
        by_cases h2 : d.lt y.distance = true
        · rw [if_pos h2]; exact ih
        · rw [if_neg h2]
          simp only
          by_cases h3 : (updPairs d y.pairs).1 = false
          · rw [if_pos h3]
            intro c hc
            rcases List.mem_cons.1 hc with rfl | hc
            · exact hsub
            · exact h c (List.mem_cons_of_mem _ hc)
          · rw [if_neg h3]
            by_cases h4 : (updPairs d y.pairs).2.length = 0
            · rw [if_pos h4]; exact ih
            · rw [if_neg h4]
              intro c hc
              rcases List.mem_cons.1 hc with rfl | hc
              · exact hsub
              · exact ih c hc

theorem nnVoxel_all {Q : Voxel → Voxel → Prop} {F : Fp} {st : List Cand × List VPair} {p : Voxel × Voxel} (hp : Q p.1 p.2)
    (h1 : AllP Q st.1) (h2 : ∀ x ∈ st.2, Q x.v1 x.v2) :
    AllP Q (nnVoxel F st p).1 ∧ ∀ x ∈ (nnVoxel F st p).2, Q x.v1 x.v2 := by
  have hs : ∀ x ∈ (updPairs (ofRange (p.1.box.distance F p.2.box)) st.2).2, Q x.v1 x.v2 :=
    fun x hx => h2 x ((updPairs_sublist _ _).subset hx)
  unfold nnVoxel
  simp only
  split
  · split
    · refine ⟨updCands_all _ _ h1, ?_⟩
      intro x hx
      rcases List.mem_append.1 hx with hx | hx
      · exact hs x hx
      · rw [List.mem_singleton] at hx; subst hx; exact hp
    · exact ⟨updCands_all _ _ h1, hs⟩
  · exact ⟨h1, hs⟩

theorem nnVoxel_fold_all {Q : Voxel → Voxel → Prop} {F : Fp} : ∀ (ps : List (Voxel × Voxel)) (st : List Cand × List VPair),
    (∀ p ∈ ps, Q p.1 p.2) → AllP Q st.1 → (∀ x ∈ st.2, Q x.v1 x.v2) →
    AllP Q (ps.foldl (nnVoxel F) st).1 ∧ ∀ x ∈ (ps.foldl (nnVoxel F) st).2, Q x.v1 x.v2
  | [], st, _, h1, h2 => ⟨h1, h2⟩
  | p :: ps, st, hp, h1, h2 => by
      obtain ⟨a, b⟩ := nnVoxel_all (F := F) (hp p (List.mem_cons_self ..)) h1 h2
      exact nnVoxel_fold_all ps _ (fun q hq => hp q (List.mem_cons_of_mem _ hq)) a b

theorem nnCand_all {Q : Voxel → Voxel → Prop} {F : Fp} {tile2 : Int → Wrapper} {w1 : Wrapper} : ∀ (ids : List (Int × Range))
    (cs : List Cand), (∀ p ∈ ids, ∀ v1 ∈ w1.voxels, ∀ v2 ∈ (tile2 p.1).voxels, Q v1 v2) → AllP Q cs →
    AllP Q (ids.foldl (nnCand F tile2 w1) cs)
  | [], cs, _, h => h
  | p :: ids, cs, hp, h => by
      refine nnCand_all ids _ (fun q hq => hp q (List.mem_cons_of_mem _ hq)) ?_
      have hu := updCands_all (ofRange p.2) cs h
      obtain ⟨a, b⟩ := nnVoxel_fold_all (Q := Q) (F := F) (voxelPairs w1 (tile2 p.1)) ((updCands (ofRange p.2) cs).2, []) (by
        intro q hq
        unfold voxelPairs at hq
        obtain ⟨x, hx, hq⟩ := List.mem_flatMap.1 hq
        obtain ⟨y, hy, rfl⟩ := List.mem_map.1 hq
        exact hp p (List.mem_cons_self ..) x hx y hy) hu (by simp)
      unfold nnCand
      simp only
      split
      · split
        · intro c hc
          rcases List.mem_append.1 hc with hc | hc
          · exact a c hc
          · rw [List.mem_singleton] at hc; subst hc; exact b
        · exact a
      · exact hu

/-- Every pair of every entry. -/
def AllE (Q : Voxel → Voxel → Prop) (es : List Entry) : Prop := ∀ e ∈ es, AllP Q e.cands

theorem allE_flat {Q : Voxel → Voxel → Prop} {es : List Entry} (h : AllE Q es) : ∀ p ∈ flatPairs es, Q p.v1 p.v2 := by
  intro p hp
  obtain ⟨e, he, hx⟩ := List.mem_flatMap.1 hp
  obtain ⟨c, hc, hx⟩ := List.mem_flatMap.1 hx
  exact h e he c hc p hx

theorem nnEntries_all {Q : Voxel → Voxel → Prop} (top : Bool) (sized : VPair → Bool) (dist : Nat → ℚ) :
    ∀ (es : List Entry) (i : Nat) (mn : WithTop ℚ), AllE Q es → AllE Q (nnEntries top sized dist i mn es).1
  | [], _, _, _ => by intro e he; simp [nnEntries] at he
  | e :: es, i, mn, h => by
      unfold nnEntries
      intro e' he'
      rcases List.mem_cons.1 he' with rfl | he'
      · refine updCands_all _ _ ?_
        intro c hc x hx
        obtain ⟨c0, hc0, _, _, hs⟩ := (forall₂_mem (nnCands_index top sized dist e.cands (i, ⟨0, ⊤⟩)).2).1 c hc
        obtain ⟨x0, hx0, e1, e2⟩ := (forall₂_mem hs).1 x hx
        rw [e1, e2]
        exact h e (List.mem_cons_self ..) c0 hc0 x0 hx0
      · exact nnEntries_all top sized dist es _ _ (fun x hx => h x (List.mem_cons_of_mem _ hx)) e' he'

theorem dropDecided_all {Q : Voxel → Voxel → Prop} {s : NNState} (h : AllE Q s.opened) : AllE Q (dropDecided s).opened :=
  fun e he => h e (List.mem_filter.1 he).1

theorem nnStep_all {Q : Voxel → Voxel → Prop} {top : Bool} {r : Round} {dist : Nat → ℚ} {s : NNState} (h : AllE Q s.opened) :
    AllE Q (nnStep top r dist s).opened := by
  unfold nnStep
  by_cases h1 : (flatPairs s.opened).length = 0
  · rw [if_pos h1]; exact h
  · rw [if_neg h1]
    by_cases h2 : segmentPairs r s.opened = 0
    · rw [if_pos h2]; exact h
    · rw [if_neg h2]
      exact dropDecided_all (nnEntries_all _ _ _ _ _ _ h)

/-- The entries after filtering. -/
theorem nnFilter_entries {tree : Octree.Node ℚ} {tile2 : Int → Wrapper} {tile1 : List (Object Seg)} {es : List Entry}
    (h : NNFilter tree tile2 tile1 es) :
    (∀ e ∈ es, ∃ q ∈ tile1, ∃ ids, SortedBy Prod.fst (Octree.queryNN Fp.exact q.obj tree ([], none)).1 ids ∧
      e = mbbNN Fp.exact tile2 q.w ids) ∧
    (∀ q ∈ tile1, ∃ ids, SortedBy Prod.fst (Octree.queryNN Fp.exact q.obj tree ([], none)).1 ids ∧
      ((mbbNN Fp.exact tile2 q.w ids).cands ≠ [] → mbbNN Fp.exact tile2 q.w ids ∈ es)) := by
  induction h with
  | nil => exact ⟨by simp, by simp⟩
  | skip h0 _ ih =>
    refine ⟨?_, ?_⟩
    · intro e he
      obtain ⟨a, ha, x⟩ := ih.1 e he
      exact ⟨a, List.mem_cons_of_mem _ ha, x⟩
    · intro q hq
      rcases List.mem_cons.1 hq with rfl | hq
      · refine ⟨[], by rw [h0]; exact ⟨List.Perm.refl _, List.Pairwise.nil⟩, fun hh => absurd rfl hh⟩
      · exact ih.2 q hq
  | empty hs h0 _ ih =>
    refine ⟨?_, ?_⟩
    · intro e he
      obtain ⟨a, ha, x⟩ := ih.1 e he
      exact ⟨a, List.mem_cons_of_mem _ ha, x⟩
    · intro q hq
      rcases List.mem_cons.1 hq with rfl | hq
      · exact ⟨_, hs, fun hh => absurd h0 hh⟩
      · exact ih.2 q hq
  | keep hs h0 _ ih =>
    refine ⟨?_, ?_⟩
    · intro e he
      rcases List.mem_cons.1 he with rfl | he
      · exact ⟨_, List.mem_cons_self .., _, hs, rfl⟩
      · obtain ⟨a, ha, x⟩ := ih.1 e he
        exact ⟨a, List.mem_cons_of_mem _ ha, x⟩
    · intro q hq
      rcases List.mem_cons.1 hq with rfl | hq
      · exact ⟨_, hs, fun _ => List.mem_cons_self ..⟩
      · obtain ⟨ids, a, b⟩ := ih.2 q hq
        exact ⟨ids, a, fun hh => List.mem_cons_of_mem _ (b hh)⟩

/-! ## The join -/

theorem mem_pt {b : Box ℚ} {s : Seg} (hp : b.Mem s.p) (hq : b.Mem s.q) {x : ℚ} (x0 : 0 ≤ x) (x1 : x ≤ 1) : b.Mem (s.pt x) := by
  intro i
  have h1 := hp i
  have h2 := hq i
  simp only [Seg.pt]
  constructor <;> nlinarith

theorem mindist_le {b b' : Box ℚ} {s t : Seg} {v : ℚ} (hs : b.Mem s.p ∧ b.Mem s.q) (ht : b'.Mem t.p ∧ b'.Mem t.q)
    (h : Attained v s t) : (b.distance Fp.exact b').mindist ≤ v := by
  obtain ⟨x, y, x0, x1, y0, y1, rfl⟩ := h
  have m1 := mem_pt hs.1 hs.2 x0 x1
  have m2 := mem_pt ht.1 ht.2 y0 y1
  exact (C18_mindist_exact b b' (fun i => le_trans (hs.1 i).1 (hs.1 i).2) (fun i => le_trans (ht.1 i).1 (ht.1 i).2)).1 _ _ m1 m2

variable {mid : ℚ → ℚ → ℚ} {dist : Pt ℚ → Pt ℚ → WithTop ℚ} {heap : Nat → Voxel → List Seg}
  {tile1 : List (Object Seg)} {o : Object Seg} {os : List (Object Seg)} {tile2 : Int → Wrapper} {lods : List Nat}
  {vs : List Voxel}

/-- Rounds keep a tracked pair. -/
theorem nnRounds_tracked {threads : Nat} (ht : 1 ≤ threads) {P U : Voxel → Voxel → Prop} {m : ℚ} {w1 w : Wrapper} {a b : Voxel}
    (hP : P a b) (top : Nat) {lods : List Nat}
    (hfits : ∀ lod ∈ lods, Fits 6 (heap lod) vs) (hlen : ∀ lod ∈ lods, ∀ v ∈ vs, (heap lod v).length ≤ 10000)
    (hgood : ∀ lod ∈ lods, ∀ x y, U x y → (∀ s ∈ heap lod x ++ heap lod y, s.p ≠ s.q) ∧
      (∀ s ∈ heap lod x, ∀ t ∈ heap lod y, (m : WithTop ℚ) ≤ segD s t) ∧
      (lod = top → P x y → ∃ s ∈ heap lod x, ∃ t ∈ heap lod y, segD s t = m))
    {s s' : NNState} (h : NNRounds (.cpu threads) heap top lods s s') (hall : AllE (fun x y => x ∈ vs ∧ y ∈ vs) s.opened)
    (htr : Tracked P U m w1 w a b s) : Tracked P U m w1 w a b s' := by
  induction h with
  | nil s => exact htr
  | @cons lod lods s s1 s2 hr _ ih =>
    have ml : lod ∈ lod :: lods := List.mem_cons_self ..
    refine ih (fun l hl => hfits l (List.mem_cons_of_mem _ hl)) (fun l hl => hlen l (List.mem_cons_of_mem _ hl))
      (fun l hl => hgood l (List.mem_cons_of_mem _ hl)) ?_ ?_
    · obtain ⟨d, _, rfl⟩ := hr
      exact nnStep_all hall
    · obtain ⟨d, hd, rfl⟩ := hr
      by_cases h1 : (flatPairs s.opened).length = 0
      · unfold nnStep; rw [if_pos h1]; exact htr
      · by_cases h2 : segmentPairs ⟨fun v => (heap lod v).length, fun _ _ => 0⟩ s.opened = 0
        · unfold nnStep; rw [if_neg h1, if_pos h2]; exact htr
        · have hc := hd h1 h2
          refine tracked_step hP ?_ htr
          intro k p hp hU hz
          simp only [Round.sized, Bool.and_eq_true, decide_eq_true_eq] at hz
          obtain ⟨g1, g2, g3⟩ := hgood lod ml _ _ hU
          obtain ⟨i1, i2⟩ := allE_flat hall p (List.mem_of_getElem? hp)
          obtain ⟨v, e, hle, s', hs', t', ht', hv, _⟩ := C63_distance_cpu ht hc vs (hfits lod ml) (allE_flat hall) k p hp
            (List.length_pos_iff.1 hz.1) (List.length_pos_iff.1 hz.2) (hlen lod ml _ i1) (hlen lod ml _ i2) g1
          simp only [Nat.zero_add]
          rw [e, WithTop.untopD_coe]
          refine ⟨?_, ?_⟩
          · have := g2 s' hs' t' ht'
            rw [hv, WithTop.coe_le_coe] at this
            exact this
          · intro htop hPx
            obtain ⟨s2, hs2, t2, ht2, e2⟩ := g3 (by simpa using htop) hPx
            have := hle s2 hs2 t2 ht2
            rw [e2, WithTop.coe_le_coe] at this
            exact this

/-- C64 (partial). Nearest-neighbour join without a GPU, for every number of threads and every schedule. Let `q` be an object of
the first tile, and let the kernel's answer for a segment of `q` and a segment of another object `b` of the second tile,
both at the highest requested level, be `m`, not larger than for any other such pair at any requested level. If the boxes
of objects and voxels contain their segments and no upper end of a range of two boxes is below `m`, then at the end `b` is
still listed for `q`, or `q` was decided and `b` is the answer. Missing: upper ends can be below the true distance (C20), the
kernel can overestimate (C36), coarse levels can be nearer; GPU (C58). -/
theorem C64_nearest_kept_partial {threads : Nat} (ht : 1 ≤ threads) {final : NNState}
    (S : Setting 6 dist Seg.p heap tile1 o os tile2 lods vs)
    (hnd : ∀ lod ∈ lods, ∀ x ∈ tile1 ++ (o :: os), ∀ s ∈ x.elems lod, s.p ≠ s.q)
    (hlen : ∀ lod ∈ lods, ∀ v ∈ vs, (heap lod v).length ≤ 10000)
    (h : NNJoin (.cpu threads) mid heap tile1 o os tile2 lods final)
    (q : Object Seg) (hq : q ∈ tile1) (b : Object Seg) (hb : b ∈ o :: os) (hbq : b.ptr ≠ q.ptr)
    (top : Nat) (htop : lods.getLast? = some top) (m : ℚ)
    (hm : ∃ s ∈ q.elems top, ∃ t ∈ b.elems top, segD s t = m)
    (hnear : ∀ lod ∈ lods, ∀ x ∈ o :: os, x.ptr ≠ q.ptr → ∀ s ∈ q.elems lod, ∀ t ∈ x.elems lod, (m : WithTop ℚ) ≤ segD s t)
    (hbox : ∀ x ∈ tile1 ++ (o :: os), (∀ s ∈ x.elems top, x.w.box.Mem s.p ∧ x.w.box.Mem s.q) ∧
      ∀ v ∈ x.w.voxels, ∀ s ∈ heap top v, v.box.Mem s.p ∧ v.box.Mem s.q)
    (hmax : ∀ x ∈ o :: os, x.ptr ≠ q.ptr → m ≤ (x.w.box.distance Fp.exact q.w.box).maxdist ∧
      ∀ v1 ∈ q.w.voxels, ∀ v2 ∈ x.w.voxels, m ≤ (v1.box.distance Fp.exact v2.box).maxdist) :
    (∃ e ∈ final.opened, e.mesh = q.w ∧ ∃ c ∈ e.cands, c.mesh = b.w) ∨
    (∃ e ∈ final.decided, e.mesh = q.w ∧ ∃ c, e.cands = [c] ∧ c.mesh = b.w) := by
  obtain ⟨fuel, tree, start, htree, hf, hr⟩ := h
  have htl : top ∈ lods := List.mem_of_getLast? htop
  have hgl : lods.getLastD 0 = top := by
    rw [List.getLastD_eq_getLast?, htop]; rfl
  rw [hgl] at hr
  have hq' : q ∈ tile1 ++ (o :: os) := List.mem_append_left _ hq
  have r2 : ∀ x ∈ o :: os, x ∈ tile1 ++ (o :: os) := fun x hx => List.mem_append_right _ hx
  have hmem : ∀ v ∈ o.obj :: os.map Object.obj, ∃ x ∈ o :: os, v = x.obj := by
    intro v hv
    rcases List.mem_cons.1 hv with rfl | hv
    · exact ⟨o, List.mem_cons_self .., rfl⟩
    · obtain ⟨x, hx, rfl⟩ := List.mem_map.1 hv
      exact ⟨x, List.mem_cons_of_mem _ hx, rfl⟩
  have hobj : ∀ x ∈ o :: os, x.obj ∈ o.obj :: os.map Object.obj := by
    intro x hx
    rcases List.mem_cons.1 hx with rfl | hx
    · exact List.mem_cons_self ..
    · exact List.mem_cons_of_mem _ (List.mem_map.2 ⟨x, hx, rfl⟩)
  have fm : ∀ lod ∈ lods, ∀ x ∈ tile1 ++ (o :: os), ∀ s, (∃ v ∈ x.w.voxels, s ∈ heap lod v) ↔ s ∈ x.elems lod :=
    fun lod hl x hx s => filled_mem (S.filled lod hl x hx).1 (S.voxels x hx).1 (S.filled lod hl x hx).2 s
  -- the index
  have nn := fun (x : Object Seg) (hx : x ∈ tile1) =>
    Octree.C23_nn_keeps_possible_nearest Fp.exact (fun _ => rfl) mid 400 fuel o.obj (os.map Object.obj) tree htree (by
      intro v hv
      obtain ⟨b, hb, rfl⟩ := hmem v hv
      exact ⟨Nat.one_pos, S.solid b (r2 b hb)⟩) x.obj (Octree.Solid.valid (S.solid x (List.mem_append_left _ hx)))
  -- where the two segments are
  obtain ⟨s, hs, t, hst, hseg⟩ := hm
  obtain ⟨va, hva, hsa⟩ := (fm top htl q hq' s).2 hs
  obtain ⟨vb, hvb, htb⟩ := (fm top htl b (r2 b hb) t).2 hst
  have hatt : Attained m s t := by
    obtain ⟨v, hv, ha⟩ := segD_attained (hnd top htl q hq' s hs) (hnd top htl b (r2 b hb) t hst)
    rw [hseg, WithTop.coe_inj] at hv
    rw [hv]; exact ha
  -- ranges of the objects
  have hlow : ∀ x ∈ tile1 ++ (o :: os), vb ∈ x.w.voxels → (x.w.box.distance Fp.exact q.w.box).mindist ≤ m := by
    intro x hx hv
    have h1 := (hbox x hx).1 t ((fm top htl x hx t).1 ⟨vb, hv, htb⟩)
    have h2 := (hbox q hq').1 s hs
    obtain ⟨u, w, u0, u1, w0, w1, e⟩ := hatt
    refine mindist_le h1 h2 ⟨w, u, w0, w1, u0, u1, ?_⟩
    rw [e]; unfold dist2; ring
  obtain ⟨nn1, nn2⟩ := nn q hq
  have hidb : (b.w.id, b.w.box.distance Fp.exact q.w.box) ∈ (Octree.queryNN Fp.exact q.obj tree ([], none)).1 := by
    refine nn1 b.obj (hobj b hb) hbq ?_
    intro w hw hwq _
    obtain ⟨x, hx, rfl⟩ := hmem w hw
    exact le_trans (hlow b (r2 b hb) hvb) (hmax x hx hwq).1
  obtain ⟨F1, F2⟩ := nnFilter_entries hf
  obtain ⟨ids, hsort, hin⟩ := F2 q hq
  have hcons : ∀ x y, Considered tile2 q.w (Octree.queryNN Fp.exact q.obj tree ([], none)).1 x y →
      x ∈ q.w.voxels ∧ ∃ z ∈ o :: os, z.ptr ≠ q.ptr ∧ y ∈ z.w.voxels := by
    rintro x y ⟨hx, p', hp', hy⟩
    obtain ⟨v, hv, hvq, rfl⟩ := nn2 p' hp'
    obtain ⟨z, hz, rfl⟩ := hmem v hv
    have hy' : y ∈ (tile2 z.w.id).voxels := hy
    rw [(S.tile z hz).1] at hy'
    exact ⟨hx, z, hz, hvq, hy'⟩
  obtain ⟨k1, k2⟩ := mbbNN_keeps Fp.exact tile2 q.w _ ids hsort (by
      intro p' hp'
      obtain ⟨v, hv, _, rfl⟩ := nn2 p' hp'
      obtain ⟨z, hz, rfl⟩ := hmem v hv
      exact (S.tile z hz).2) (fun x y => x = va ∧ y = vb) m (by
      intro p' hp' v1 h1 v2 h2
      obtain ⟨_, z, hz, hzq, h2'⟩ := hcons v1 v2 ⟨h1, p', hp', h2⟩
      refine ⟨?_, (hmax z hz hzq).2 v1 h1 v2 h2'⟩
      rintro ⟨rfl, rfl⟩
      exact mindist_le ((hbox q hq').2 _ h1 s hsa) ((hbox z (r2 z hz)).2 _ h2' t htb) hatt) (by
      intro p' hp'
      obtain ⟨v, hv, hvq, rfl⟩ := nn2 p' hp'
      obtain ⟨z, hz, rfl⟩ := hmem v hv
      refine ⟨?_, (hmax z hz hvq).1⟩
      rintro v1 _ v2 h2 ⟨_, rfl⟩
      have h2' : v2 ∈ (tile2 z.w.id).voxels := h2
      rw [(S.tile z hz).1] at h2'
      exact hlow z (r2 z hz) h2') _ hidb va vb hva (by
      show vb ∈ (tile2 b.w.id).voxels
      rw [(S.tile b hb).1]; exact hvb) ⟨rfl, rfl⟩
  have hw : tile2 b.w.id = b.w := (S.tile b hb).1
  rw [hw] at k2
  have hent := hin (by
    intro he
    obtain ⟨c, hc, _⟩ := k2
    rw [he] at hc; simp at hc)
  -- all pairs are pairs of the tiles
  have hall : AllE (fun x y => x ∈ vs ∧ y ∈ vs) start := by
    intro e he
    obtain ⟨q0, hq0, ids0, hs0, rfl⟩ := F1 e he
    refine nnCand_all _ _ ?_ (by intro c hc; simp at hc)
    intro p' hp' v1 h1 v2 h2
    have hp0 : p' ∈ (Octree.queryNN Fp.exact q0.obj tree ([], none)).1 :=
      hs0.1.subset ((skipDup_sublist Prod.fst ids0 (-1)).subset hp')
    obtain ⟨v, hv, _, rfl⟩ := (nn q0 hq0).2 p' hp0
    obtain ⟨z, hz, rfl⟩ := hmem v hv
    have h2' : v2 ∈ (tile2 z.w.id).voxels := h2
    rw [(S.tile z hz).1] at h2'
    exact ⟨(S.voxels q0 (List.mem_append_left _ hq0)).2 v1 h1, (S.voxels z (r2 z hz)).2 v2 h2'⟩
  have htr := nnRounds_tracked (vs := vs) ht (P := fun x y => x = va ∧ y = vb)
    (U := Considered tile2 q.w (Octree.queryNN Fp.exact q.obj tree ([], none)).1) (m := m) (w1 := q.w) (w := b.w) (a := va) (b := vb)
    ⟨rfl, rfl⟩ top S.fits hlen (by
      intro lod hl x y hU
      obtain ⟨hx, z, hz, hzq, hy⟩ := hcons x y hU
      have hxe : ∀ s ∈ heap lod x, s ∈ q.elems lod := fun s hs => (fm lod hl q hq' s).1 ⟨x, hx, hs⟩
      have hye : ∀ t ∈ heap lod y, t ∈ z.elems lod := fun t ht => (fm lod hl z (r2 z hz) t).1 ⟨y, hy, ht⟩
      refine ⟨?_, ?_, ?_⟩
      · intro s hs
        rcases List.mem_append.1 hs with hs | hs
        · exact hnd lod hl q hq' s (hxe s hs)
        · exact hnd lod hl z (r2 z hz) s (hye s hs)
      · intro s hs t ht
        exact hnear lod hl z hz hzq s (hxe s hs) t (hye t ht)
      · rintro rfl ⟨rfl, rfl⟩
        exact ⟨s, hsa, t, htb, hseg⟩) hr (dropDecided_all hall)
    (tracked_drop (s := ⟨start, [], 0⟩) ⟨⟨_, List.mem_append_left _ hent, rfl, k1, k2⟩, by simp⟩)
  rcases tracked_result htr with ⟨e, he, e1, c, hc, e2, _⟩ | h
  · exact Or.inl ⟨e, he, e1, c, hc, e2⟩
  · exact Or.inr h

end TDP.EndToEnd
