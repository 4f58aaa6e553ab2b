import Verif.EndToEnd.Lemmas
/-!
# Properties C61, C62: the intersection join from the objects to the undecided objects
-/
namespace TDP.EndToEnd
open TDP.Boxes TDP.Join TDP.Kernels TDP.Gpu

/-- One level: what stays is unchanged; what goes had a pair of triangles hit (or was marked before). -/
theorem round_sound {cfg : Cfg} {heap : Voxel → List Tri} {es es' : List Entry} (h : IntersectRound cfg heap es es')
    (vs : List Voxel) (hfits : Fits 9 heap vs) (hvs : ∀ p ∈ flatPairs es, p.v1 ∈ vs ∧ p.v2 ∈ vs) :
    es'.Sublist es ∧ ∀ e ∈ es, e ∉ es' → ∃ c ∈ e.cands, ∃ x ∈ c.pairs, x.intersect = true ∨ Hit (heap x.v1) (heap x.v2) := by
  cases h with
  | idle h0 => exact ⟨List.Sublist.refl _, fun e h1 h2 => absurd h1 h2⟩
  | run m' junk ws hne hm' hws =>
    refine dropHit_any (H := fun x => Hit (heap x.v1) (heap x.v2)) ?_
    refine markEntries_any _ _ es 0 ?_
    intro k p hp hs
    rw [Nat.zero_add, decide_eq_true_eq] at hs
    obtain ⟨s1, s2⟩ := status_spec cfg _ _ _ ws hws k (List.getElem?_eq_some_iff.1 hp).1
    by_cases hc : Computed cfg (flatPairs es).length k
    · exact (cpuInt_packed heap vs hfits (flatPairs es) hvs m' hm' junk k p hp).1 ((s1 hc).1 hs)
    · exact absurd (s2 hc) hs

/-- One level, when every pair is computed: what stays has no hit. -/
theorem round_complete {cfg : Cfg} {heap : Voxel → List Tri} {es es' : List Entry} (h : IntersectRound cfg heap es es')
    (hall : ∀ i < (flatPairs es).length, Computed cfg (flatPairs es).length i)
    (vs : List Voxel) (hfits : Fits 9 heap vs) (hvs : ∀ p ∈ flatPairs es, p.v1 ∈ vs ∧ p.v2 ∈ vs) :
    ∀ e ∈ es', ∀ c ∈ e.cands, ∀ x ∈ c.pairs, ¬ Hit (heap x.v1) (heap x.v2) := by
  classical
  cases h with
  | idle h0 =>
    intro e he c hc x hx
    have : x ∈ flatPairs es := List.mem_flatMap.2 ⟨e, he, List.mem_flatMap.2 ⟨c, hc, hx⟩⟩
    rw [List.length_eq_zero_iff.1 h0] at this
    simp at this
  | run m' junk ws hne hm' hws =>
    have heq : dropHit (markEntries (fun i => decide (runWrites (fun _ => 0) ws i ≠ 0)) 0 es) =
        intersectRound (fun a b => decide (Hit (heap a) (heap b))) es := by
      unfold intersectRound
      rw [if_neg hne]
      have hal : ∀ (k : Nat) p, (flatPairs es)[k]? = some p →
          (decide (runWrites (fun _ => 0) ws k ≠ 0)) = decide (Hit (heap p.v1) (heap p.v2)) := by
        intro k p hp
        have hk := (List.getElem?_eq_some_iff.1 hp).1
        rw [decide_eq_decide]
        obtain ⟨s1, _⟩ := status_spec cfg _ _ _ ws hws k hk
        rw [s1 (hall k hk)]
        exact cpuInt_packed heap vs hfits (flatPairs es) hvs m' hm' junk k p hp
      rw [markEntries_eq (fun a b => decide (Hit (heap a) (heap b))) _ es 0 (by
        intro k p hp; rw [Nat.zero_add]; exact hal k p hp)]
      rw [markEntries_eq (fun a b => decide (Hit (heap a) (heap b))) _ es 0 (by
        intro k p hp; simp only [Nat.zero_add, hp])]
    intro e he c hc x hx hh
    rw [heq, C41_round] at he
    exact he.2 ⟨c, hc, x, hx, Or.inr (by simpa using hh)⟩

theorem flatPairs_sub {es es' : List Entry} (h : es'.Sublist es) : ∀ p ∈ flatPairs es', p ∈ flatPairs es := by
  intro p hp
  obtain ⟨e, he, hx⟩ := List.mem_flatMap.1 hp
  exact List.mem_flatMap.2 ⟨e, h.subset he, hx⟩

/-- All levels. -/
theorem rounds_sound {cfg : Cfg} {heap : Nat → Voxel → List Tri} {lods : List Nat} {es es' : List Entry}
    (h : IntersectRounds cfg heap lods es es') (vs : List Voxel) (hfits : ∀ lod ∈ lods, Fits 9 (heap lod) vs)
    (hvs : ∀ p ∈ flatPairs es, p.v1 ∈ vs ∧ p.v2 ∈ vs)
    (h0 : ∀ e ∈ es, ∀ c ∈ e.cands, ∀ x ∈ c.pairs, x.intersect = false) :
    es'.Sublist es ∧ ∀ e ∈ es, e ∉ es' → ∃ lod ∈ lods, ∃ c ∈ e.cands, ∃ x ∈ c.pairs, Hit (heap lod x.v1) (heap lod x.v2) := by
  induction h with
  | nil es => exact ⟨List.Sublist.refl _, fun e h1 h2 => absurd h1 h2⟩
  | @cons lod lods es es1 es2 hr _ ih =>
    obtain ⟨a, b⟩ := round_sound hr vs (hfits _ (List.mem_cons_self ..)) hvs
    obtain ⟨c, d⟩ := ih (fun l hl => hfits l (List.mem_cons_of_mem _ hl)) (fun p hp => hvs p (flatPairs_sub a p hp))
      (fun e he => h0 e (a.subset he))
    refine ⟨c.trans a, ?_⟩
    intro e he hn
    by_cases hm : e ∈ es1
    · obtain ⟨lod, hl, h⟩ := d e hm hn
      exact ⟨lod, List.mem_cons_of_mem _ hl, h⟩
    · obtain ⟨cc, hc, x, hx, hh⟩ := b e he hm
      refine ⟨_, List.mem_cons_self .., cc, hc, x, hx, ?_⟩
      rcases hh with hh | hh
      · rw [h0 e he cc hc x hx] at hh; exact absurd hh (by decide)
      · exact hh

/-- Every pair is computed on a GPU, and on the CPU with one thread. -/
theorem computed_all {cfg : Cfg} (h : cfg = .gpu ∨ cfg = .cpu 1) (n : Nat) : ∀ i < n, Computed cfg n i := by
  intro i hi
  rcases h with rfl | rfl
  · exact hi
  · unfold Computed; simp; exact hi

theorem rounds_complete {cfg : Cfg} (hcfg : cfg = .gpu ∨ cfg = .cpu 1) {heap : Nat → Voxel → List Tri} {lods : List Nat}
    {es es' : List Entry} (h : IntersectRounds cfg heap lods es es') (vs : List Voxel)
    (hfits : ∀ lod ∈ lods, Fits 9 (heap lod) vs) (hvs : ∀ p ∈ flatPairs es, p.v1 ∈ vs ∧ p.v2 ∈ vs)
    (h0 : ∀ e ∈ es, ∀ c ∈ e.cands, ∀ x ∈ c.pairs, x.intersect = false) :
    ∀ e ∈ es', ∀ lod ∈ lods, ∀ c ∈ e.cands, ∀ x ∈ c.pairs, ¬ Hit (heap lod x.v1) (heap lod x.v2) := by
  induction h with
  | nil es => intro e _ lod hl; simp at hl
  | cons hr hrs ih =>
    obtain ⟨a, b⟩ := round_sound hr vs (hfits _ (List.mem_cons_self ..)) hvs
    have hc := round_complete hr (computed_all hcfg _) vs (hfits _ (List.mem_cons_self ..)) hvs
    have f1 := fun l hl => hfits l (List.mem_cons_of_mem _ hl)
    have f2 := fun p hp => hvs p (flatPairs_sub a p hp)
    have f3 := fun e he => h0 e (a.subset he)
    have ih' := ih f1 f2 f3
    obtain ⟨c, _⟩ := rounds_sound hrs vs f1 f2 f3
    intro e he lod hl
    rcases List.mem_cons.1 hl with rfl | hl
    · exact hc e (c.subset he)
    · exact ih' e he lod hl

/-- The entries after filtering. -/
theorem filter_entries {E : Type} {tree : Octree.Node ℚ} {tile2 : Int → Wrapper} {tile1 : List (Object E)} {es : List Entry}
    (h : Filter tree tile2 tile1 es) :
    (∀ e ∈ es, ∃ a ∈ tile1, ∃ ids, SortedBy id (Octree.queryIntersect a.obj tree) ids ∧ e = mbbIntersect tile2 a.w ids) := by
  induction h with
  | nil => intro e he; simp at he
  | skip _ _ ih =>
    intro e he
    obtain ⟨a, ha, x⟩ := ih e he
    exact ⟨a, List.mem_cons_of_mem _ ha, x⟩
  | keep _ hs _ ih =>
    intro e he
    rcases List.mem_cons.1 he with rfl | he
    · exact ⟨_, List.mem_cons_self .., _, hs, rfl⟩
    · obtain ⟨a, ha, x⟩ := ih e he
      exact ⟨a, List.mem_cons_of_mem _ ha, x⟩

/-- The voxels of an object together hold exactly its elements. -/
theorem filled_mem {E : Type} {dist : Pt ℚ → Pt ℚ → WithTop ℚ} {first : E → Pt ℚ} {heap : Nat → Voxel → List E} {lod : Nat}
    {o : Object E} (h : Filled dist first heap lod o) (hne : o.w.voxels ≠ [])
    (hfin : ∀ c ∈ o.cores, ∀ e ∈ o.elems lod, dist c (first e) < ⊤) (t : E) :
    (∃ v ∈ o.w.voxels, t ∈ heap lod v) ↔ t ∈ o.elems lod := by
  obtain ⟨vs, ws, h1, h2, h3, h4, h5⟩ := h
  have hvne : vs ≠ [] := by
    intro hh; rw [hh] at h2; exact hne (List.length_eq_zero_iff.1 h2.symm)
  obtain ⟨ws', e1, e2⟩ := Voxels.C31_each_exactly_once dist first lod (o.elems lod) vs hvne h3 (by
    intro v hv e he
    exact hfin _ (h1 ▸ List.mem_map.2 ⟨v, hv, rfl⟩) e he)
  rw [h4] at e1
  injection e1 with e1
  subst e1
  rw [← e2.mem_iff]
  have e3 : ws.flatMap (fun w => (w.data lod).getD []) = o.w.voxels.flatMap (fun v => heap lod v) := by
    have : ws.flatMap (fun w => (w.data lod).getD []) = (ws.map (fun v => v.data lod)).flatMap (fun d => d.getD []) := by
      rw [List.flatMap_map]
    rw [this, h5, List.flatMap_map]
    rfl
  rw [e3, List.mem_flatMap]

/-- The conditions of the two theorems: `o :: os` are the objects of the second tile (`tile2 i` is the wrapper with number
`i`); boxes are not flat; every object has a voxel, each with a core, at finite distance from the triangles' first corners;
the voxels (all in `vs`) have distinct addresses and the triangles of a level fit into 2^32 floats. -/
structure Setting {E : Type} (k : Nat) (dist : Pt ℚ → Pt ℚ → WithTop ℚ) (first : E → Pt ℚ) (heap : Nat → Voxel → List E)
    (tile1 : List (Object E)) (o : Object E) (os : List (Object E)) (tile2 : Int → Wrapper) (lods : List Nat) (vs : List Voxel) :
    Prop where
  ids : ∀ i, (tile2 i).id = i
  tile : ∀ b ∈ o :: os, tile2 b.w.id = b.w ∧ 0 ≤ b.w.id
  solid : ∀ b ∈ tile1 ++ (o :: os), b.w.box.Solid
  voxels : ∀ b ∈ tile1 ++ (o :: os), b.w.voxels ≠ [] ∧ ∀ v ∈ b.w.voxels, v ∈ vs
  filled : ∀ lod ∈ lods, ∀ b ∈ tile1 ++ (o :: os), Filled dist first heap lod b ∧
    ∀ c ∈ b.cores, ∀ e ∈ b.elems lod, dist c (first e) < ⊤
  fits : ∀ lod ∈ lods, Fits k (heap lod) vs

/-- What an entry contains. -/
theorem entry_spec {k : Nat} {dist : Pt ℚ → Pt ℚ → WithTop ℚ} {heap : Nat → Voxel → List Tri} {tile1 : List (Object Tri)}
    {o : Object Tri} {os : List (Object Tri)} {tile2 : Int → Wrapper} {lods : List Nat} {vs : List Voxel}
    (S : Setting k dist Tri.C heap tile1 o os tile2 lods vs) {mid : ℚ → ℚ → ℚ} {fuel : Nat} {tree : Octree.Node ℚ}
    (ht : Octree.build mid 400 fuel o.obj (os.map Object.obj) = some tree) {a : Object Tri} (ha : a ∈ tile1) {ids : List Int}
    (hs : SortedBy id (Octree.queryIntersect a.obj tree) ids) :
    (∀ c ∈ (mbbIntersect tile2 a.w ids).cands, ∃ b ∈ o :: os, c.mesh = b.w ∧ b.ptr ≠ a.ptr ∧ b.w.box.intersect a.w.box = true ∧
      ∀ x ∈ c.pairs, x.v1 ∈ a.w.voxels ∧ x.v2 ∈ b.w.voxels ∧ x.intersect = false) ∧
    (∀ b ∈ o :: os, b.ptr ≠ a.ptr → b.w.box.intersect a.w.box = true → ∀ v1 ∈ a.w.voxels, ∀ v2 ∈ b.w.voxels,
      v1.box.intersect v2.box = true → ∃ c ∈ (mbbIntersect tile2 a.w ids).cands, ∃ x ∈ c.pairs, x.v1 = v1 ∧ x.v2 = v2) := by
  have hmem : ∀ v ∈ o.obj :: os.map Object.obj, ∃ b ∈ o :: os, v = b.obj := by
    intro v hv
    rcases List.mem_cons.1 hv with rfl | hv
    · exact ⟨o, List.mem_cons_self .., rfl⟩
    · obtain ⟨b, hb, rfl⟩ := List.mem_map.1 hv
      exact ⟨b, List.mem_cons_of_mem _ hb, rfl⟩
  have hsz : ∀ v ∈ o.obj :: os.map Object.obj, 0 < v.size ∧ v.box.Solid ∧ 0 ≤ v.id := by
    intro v hv
    obtain ⟨b, hb, rfl⟩ := hmem v hv
    exact ⟨Nat.one_pos, S.solid b (List.mem_append_right _ hb), (S.tile b hb).2⟩
  obtain ⟨_, k2, k3⟩ := C24_intersect_candidates mid 400 fuel o.obj (os.map Object.obj) tree ht hsz tile2 S.ids a.obj a.w
    (S.solid a (List.mem_append_left _ ha)) ids hs
  have hun : ∀ c ∈ (mbbIntersect tile2 a.w ids).cands, (c.mesh = tile2 c.mesh.id) ∧ ∀ x ∈ c.pairs, x.intersect = false := by
    intro c hc
    unfold mbbIntersect at hc
    obtain ⟨hc, _⟩ := List.mem_filter.1 hc
    obtain ⟨i, _, rfl⟩ := List.mem_map.1 hc
    refine ⟨?_, ?_⟩
    · show tile2 i = tile2 (tile2 i).id
      rw [S.ids]
    · intro x hx
      unfold intersectCand at hx
      obtain ⟨p, _, rfl⟩ := List.mem_map.1 hx
      rfl
  constructor
  · intro c hc
    obtain ⟨v, hv, h1, h2, h3, _⟩ := (k2 c.mesh.id).1 (List.mem_map.2 ⟨c, hc, rfl⟩)
    obtain ⟨b, hb, rfl⟩ := hmem v hv
    have hm : c.mesh = b.w := by
      rw [(hun c hc).1, ← h1]; exact (S.tile b hb).1
    refine ⟨b, hb, hm, h2, h3, ?_⟩
    intro x hx
    obtain ⟨g1, g2, _⟩ := (k3 c hc x.v1 x.v2).1 ⟨x, hx, rfl, rfl⟩
    rw [hm] at g2
    exact ⟨g1, g2, (hun c hc).2 x hx⟩
  · intro b hb hp hbox v1 hv1 v2 hv2 hv
    have htb := (S.tile b hb).1
    have hbo : b.obj ∈ o.obj :: os.map Object.obj := by
      rcases List.mem_cons.1 hb with rfl | hb
      · exact List.mem_cons_self ..
      · exact List.mem_cons_of_mem _ (List.mem_map.2 ⟨b, hb, rfl⟩)
    obtain ⟨c, hc, hid⟩ := List.mem_map.1 ((k2 b.w.id).2 ⟨b.obj, hbo, rfl, hp, hbox, v1, hv1, v2, by rw [htb]; exact hv2, hv⟩)
    have hm : c.mesh = b.w := by
      rw [(hun c hc).1, hid]; exact htb
    exact ⟨c, hc, (k3 c hc v1 v2).2 ⟨hv1, by rw [hm]; exact hv2, hv⟩⟩

section
variable {cfg : Cfg} {mid : ℚ → ℚ → ℚ} {dist : Pt ℚ → Pt ℚ → WithTop ℚ} {heap : Nat → Voxel → List Tri}
  {tile1 : List (Object Tri)} {o : Object Tri} {os : List (Object Tri)} {tile2 : Int → Wrapper} {lods : List Nat}
  {vs : List Voxel} {start final : List Entry}

/-- Start entries are unmarked and speak about voxels of the tiles. -/
theorem start_spec (S : Setting 9 dist Tri.C heap tile1 o os tile2 lods vs) {fuel : Nat} {tree : Octree.Node ℚ}
    (ht : Octree.build mid 400 fuel o.obj (os.map Object.obj) = some tree) (hf : Filter tree tile2 tile1 start) :
    (∀ e ∈ start, ∀ c ∈ e.cands, ∀ x ∈ c.pairs, x.intersect = false) ∧ (∀ p ∈ flatPairs start, p.v1 ∈ vs ∧ p.v2 ∈ vs) := by
  have key : ∀ e ∈ start, ∀ c ∈ e.cands, ∀ x ∈ c.pairs, x.intersect = false ∧ x.v1 ∈ vs ∧ x.v2 ∈ vs := by
    intro e he c hc x hx
    obtain ⟨a, ha, ids, hs, rfl⟩ := filter_entries hf e he
    obtain ⟨b, hb, _, _, _, h⟩ := (entry_spec S ht ha hs).1 c hc
    obtain ⟨x1, x2, x3⟩ := h x hx
    exact ⟨x3, (S.voxels a (List.mem_append_left _ ha)).2 _ x1, (S.voxels b (List.mem_append_right _ hb)).2 _ x2⟩
  refine ⟨fun e he c hc x hx => (key e he c hc x hx).1, ?_⟩
  intro p hp
  obtain ⟨e, he, hx⟩ := List.mem_flatMap.1 hp
  obtain ⟨c, hc, hx⟩ := List.mem_flatMap.1 hx
  exact (key e he c hc p hx).2

/-- C61. The intersection join takes an object off its list of undecided objects only if at one of the requested levels
of detail one of its triangles and a triangle of another object of the second tile, whose box meets its own, pass the
triangle test, and so (if the former is not degenerate) have a point in common. On the CPU with any number of threads and
on a GPU, for every schedule. The list it leaves is a sublist of the list it started with. -/
theorem C61_decided_means_hit (S : Setting 9 dist Tri.C heap tile1 o os tile2 lods vs)
    (h : IntersectJoin cfg mid heap tile1 o os tile2 lods start final) :
    final.Sublist start ∧ ∀ e ∈ start, ∃ a ∈ tile1, e.mesh = a.w ∧
      (e ∉ final → ∃ lod ∈ lods, ∃ b ∈ o :: os, b.ptr ≠ a.ptr ∧ b.w.box.intersect a.w.box = true ∧
        ∃ t1 ∈ a.elems lod, ∃ t2 ∈ b.elems lod, triInt t1.C t1.P1 t1.P2 t2.C t2.P1 t2.P2 = true ∧
          (vcross t1.P1 t1.P2 ≠ 0 → TriMeet t1.C t1.P1 t1.P2 t2.C t2.P1 t2.P2)) := by
  obtain ⟨fuel, tree, ht, hf, hr⟩ := h
  obtain ⟨s1, s2⟩ := start_spec S ht hf
  obtain ⟨r1, r2⟩ := rounds_sound hr vs S.fits s2 s1
  refine ⟨r1, ?_⟩
  intro e he
  obtain ⟨a, ha, ids, hs, rfl⟩ := filter_entries hf e he
  refine ⟨a, ha, rfl, ?_⟩
  intro hn
  obtain ⟨lod, hl, c, hc, x, hx, t1, ht1, t2, ht2, hh⟩ := r2 _ he hn
  obtain ⟨b, hb, _, hp, hbox, hx'⟩ := (entry_spec S ht ha hs).1 c hc
  obtain ⟨x1, x2, _⟩ := hx' x hx
  have ma := List.mem_append_left (o :: os) ha
  have mb := List.mem_append_right tile1 hb
  refine ⟨lod, hl, b, hb, hp, hbox, t1, ?_, t2, ?_, hh, fun hN => C38_sound hN hh⟩
  · exact (filled_mem (S.filled lod hl a ma).1 (S.voxels a ma).1 (S.filled lod hl a ma).2 t1).1 ⟨_, x1, ht1⟩
  · exact (filled_mem (S.filled lod hl b mb).1 (S.voxels b mb).1 (S.filled lod hl b mb).2 t2).1 ⟨_, x2, ht2⟩

/-- The list after filtering, in the order of the tile. -/
theorem filter_meshes {E : Type} {tree : Octree.Node ℚ} {tile2 : Int → Wrapper} {tile1 : List (Object E)} {es : List Entry}
    (h : Filter tree tile2 tile1 es) :
    es.map Entry.mesh = (tile1.filter (fun a => !(Octree.queryIntersect a.obj tree).isEmpty)).map Object.w := by
  induction h with
  | nil => rfl
  | skip hq _ ih => rw [List.filter_cons_of_neg (by simp [hq])]; exact ih
  | keep hq _ _ ih =>
    rw [List.filter_cons_of_pos (by simp [hq]), List.map_cons, List.map_cons, ih]
    rfl

open Classical in
/-- C61. The list of undecided objects starts with exactly those objects of the first tile whose box meets the box of another
object of the second tile, in the order of the tile. -/
theorem C61_start (S : Setting 9 dist Tri.C heap tile1 o os tile2 lods vs)
    (h : IntersectJoin cfg mid heap tile1 o os tile2 lods start final) :
    start.map Entry.mesh = (tile1.filter (fun a =>
      decide (∃ b ∈ o :: os, b.ptr ≠ a.ptr ∧ b.w.box.intersect a.w.box = true))).map Object.w := by
  obtain ⟨fuel, tree, ht, hf, hr⟩ := h
  rw [filter_meshes hf]
  congr 1
  refine List.filter_congr ?_
  intro a ha
  have hsz : ∀ v ∈ o.obj :: os.map Object.obj, 0 < v.size ∧ v.box.Solid := by
    intro v hv
    rcases List.mem_cons.1 hv with rfl | hv
    · exact ⟨Nat.one_pos, S.solid _ (List.mem_append_right _ (List.mem_cons_self ..))⟩
    · obtain ⟨b, hb, rfl⟩ := List.mem_map.1 hv
      exact ⟨Nat.one_pos, S.solid _ (List.mem_append_right _ (List.mem_cons_of_mem _ hb))⟩
  have key := Octree.C21_intersect_query_exact mid 400 fuel o.obj (os.map Object.obj) tree ht hsz a.obj
    (S.solid a (List.mem_append_left _ ha))
  rw [Bool.eq_iff_iff, decide_eq_true_eq, Bool.not_eq_true', ← Bool.not_eq_true, List.isEmpty_iff]
  constructor
  · intro hne
    obtain ⟨x, hx⟩ := List.exists_mem_of_ne_nil _ hne
    obtain ⟨v, hv, h1⟩ := (key x).1 hx
    rcases List.mem_cons.1 hv with rfl | hv
    · exact ⟨o, List.mem_cons_self .., h1.1, h1.2.2⟩
    · obtain ⟨b, hb, rfl⟩ := List.mem_map.1 hv
      exact ⟨b, List.mem_cons_of_mem _ hb, h1.1, h1.2.2⟩
  · rintro ⟨b, hb, h1, h2⟩ hn
    have : b.obj.id ∈ Octree.queryIntersect a.obj tree := (key _).2 ⟨b.obj, by
      rcases List.mem_cons.1 hb with rfl | hb
      · exact List.mem_cons_self ..
      · exact List.mem_cons_of_mem _ (List.mem_map.2 ⟨b, hb, rfl⟩), h1, rfl, h2⟩
    rw [hn] at this
    simp at this

/-- C62 (partial). On a GPU, or on the CPU with one computing thread: if at a requested level of detail a triangle of `a`
and a triangle of another object of the second tile pass the triangle test, the boxes of the two objects meet, and
the boxes of the voxels that hold the triangles meet, then no entry for `a` is left. Missing: several CPU threads (pairs are
dropped, C35), triangles that stick out of the boxes of their voxels (C32). -/
theorem C62_hit_is_decided_partial (hcfg : cfg = .gpu ∨ cfg = .cpu 1)
    (S : Setting 9 dist Tri.C heap tile1 o os tile2 lods vs)
    (h : IntersectJoin cfg mid heap tile1 o os tile2 lods start final)
    (hinj : ∀ a ∈ tile1, ∀ a' ∈ tile1, a.w = a'.w → a = a')
    (a : Object Tri) (ha : a ∈ tile1) (b : Object Tri) (hb : b ∈ o :: os) (hp : b.ptr ≠ a.ptr)
    (hbox : b.w.box.intersect a.w.box = true) (lod : Nat) (hl : lod ∈ lods)
    (t1 : Tri) (ht1 : t1 ∈ a.elems lod) (t2 : Tri) (ht2 : t2 ∈ b.elems lod)
    (hvox : ∀ v1 ∈ a.w.voxels, ∀ v2 ∈ b.w.voxels, t1 ∈ heap lod v1 → t2 ∈ heap lod v2 → v1.box.intersect v2.box = true)
    (hhit : triInt t1.C t1.P1 t1.P2 t2.C t2.P1 t2.P2 = true) :
    ∀ e ∈ final, e.mesh ≠ a.w := by
  obtain ⟨fuel, tree, ht, hf, hr⟩ := h
  obtain ⟨s1, s2⟩ := start_spec S ht hf
  obtain ⟨r1, _⟩ := rounds_sound hr vs S.fits s2 s1
  have rc := rounds_complete hcfg hr vs S.fits s2 s1
  intro e he hm
  obtain ⟨a', ha', ids, hs, rfl⟩ := filter_entries hf e (r1.subset he)
  have := hinj a' ha' a ha hm
  subst this
  have ma := List.mem_append_left (o :: os) ha
  have mb := List.mem_append_right tile1 hb
  obtain ⟨v1, hv1, k1⟩ := (filled_mem (S.filled lod hl a' ma).1 (S.voxels a' ma).1 (S.filled lod hl a' ma).2 t1).2 ht1
  obtain ⟨v2, hv2, k2⟩ := (filled_mem (S.filled lod hl b mb).1 (S.voxels b mb).1 (S.filled lod hl b mb).2 t2).2 ht2
  obtain ⟨c, hc, x, hx, rfl, rfl⟩ := (entry_spec S ht ha hs).2 b hb hp hbox v1 hv1 v2 hv2 (hvox v1 hv1 v2 hv2 k1 k2)
  exact rc _ he lod hl c hc x hx ⟨t1, k1, t2, k2, hhit⟩

end

end TDP.EndToEnd
