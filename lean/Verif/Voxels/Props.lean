import Verif.Voxels.Lemmas
import Mathlib.Order.Fin.Basic
import Mathlib.Data.List.Perm.Basic
/-! # C31, C32, C51: voxels -/
namespace TDP.Voxels
open TDP.Boxes

section
variable {α δ : Type} [LinearOrder α] [BoundedOrder α] [LinearOrder δ] [OrderTop δ]

open Classical in
omit [LinearOrder α] [BoundedOrder α] in
/-- **C31.** Filling voxels that have no data at this level: each voxel gets exactly the elements whose first
point has this voxel's core as its first nearest core, in the original order; the recorded size is their
number; cores, boxes and the data of other levels stay. (With a single voxel its core is the nearest, so it
gets everything.) -/
theorem C31_fill {E : Type} (dist : Pt α → Pt α → δ) (first : E → Pt α) (lod : Nat) (elems : List E)
    (vs : List (Voxel α E)) (hne : vs ≠ []) (hempty : ∀ v ∈ vs, v.data lod = none)
    (hfin : ∀ v ∈ vs, ∀ e ∈ elems, dist v.core (first e) < ⊤) :
    ∃ ws, fillVoxel dist first lod elems vs = some ws ∧ ws.length = vs.length ∧
      ∀ j (h : j < vs.length) (h' : j < ws.length),
        ws[j].data lod = some (elems.filter (fun e => decide (FirstNearest dist (vs.map (·.core)) (first e) j))) ∧
        ws[j].size lod = some (elems.filter (fun e => decide (FirstNearest dist (vs.map (·.core)) (first e) j))).length ∧
        ws[j].core = vs[j].core ∧ ws[j].box = vs[j].box ∧
        ∀ k, k ≠ lod → ws[j].data k = vs[j].data k ∧ ws[j].size k = vs[j].size k := by
  cases vs with
  | nil => exact absurd rfl hne
  | cons v0 vt =>
    unfold fillVoxel
    simp only
    rw [hempty v0 List.mem_cons_self, if_neg (by simp)]
    by_cases h1 : (v0 :: vt).length = 1
    · rw [if_pos h1]
      refine ⟨_, rfl, h1.symm, ?_⟩
      intro j h h'
      have hvt : vt = [] := by simpa using h1
      subst hvt
      have hj : j = 0 := by simp at h; exact h
      subst hj
      have hall : elems.filter (fun e => decide (FirstNearest dist ([v0].map (·.core)) (first e) 0)) = elems := by
        rw [List.filter_eq_self]
        intro e _
        rw [decide_eq_true_iff]
        refine ⟨v0.core, rfl, ?_, fun k c' hk => by omega⟩
        intro k c' hk
        cases k with
        | zero => simp at hk; rw [hk]
        | succ k => simp at hk
      rw [hall]
      refine ⟨?_, ?_, rfl, rfl, ?_⟩
      · simp [Voxel.set]
      · simp [Voxel.set]
      · intro k hk; simp [Voxel.set, hk]
    · rw [if_neg h1]
      generalize v0 :: vt = vs at *
      have hgf : ∀ e, ∃ g, e ∈ elems → nearest dist (vs.map (·.core)) (first e) = some g ∧
          FirstNearest dist (vs.map (·.core)) (first e) g := by
        intro e
        by_cases he : e ∈ elems
        · obtain ⟨j, a, b⟩ := nearest_spec dist (vs.map (·.core)) (first e) (by simpa using hne)
            (fun c hc => by obtain ⟨v, hv, rfl⟩ := List.mem_map.mp hc; exact hfin v hv e he)
          exact ⟨j, fun _ => ⟨a, b⟩⟩
        · exact ⟨0, fun h => absurd h he⟩
      choose gf hgf using hgf
      rw [mapM_some elems _ gf (fun e he => (hgf e he).1)]
      simp only [Option.bind_eq_bind, Option.bind_some]
      rw [zip_map_self]
      obtain ⟨bufs, b1, b2, b3⟩ := copy_spec (elems.map (fun e => (gf e, e)))
        ((List.range vs.length).map (fun j => ((elems.map gf).count j, ([] : List E))))
        (by
          intro x hx
          obtain ⟨e, he, rfl⟩ := List.mem_map.mp hx
          obtain ⟨c, hc, _⟩ := (hgf e he).2
          have := (List.getElem?_eq_some_iff.mp hc).1
          simpa using this)
        (by
          intro j hj
          rw [List.map_map]
          simp only [List.getElem_map, List.getElem_range, List.length_nil, Nat.zero_add]
          exact Nat.le_refl _)
      rw [b1]
      simp only [Option.bind_some]
      rw [List.length_map, List.length_range] at b2
      refine ⟨_, rfl, by rw [List.length_zipWith, b2, Nat.min_self], ?_⟩
      intro j h h'
      have hj : j < bufs.length := by rw [b2]; exact h
      have hb := b3 j (by simpa using h) hj
      simp only [List.getElem_map, List.nil_append] at hb
      rw [filter_map_snd] at hb
      have hfil : elems.filter (fun e => gf e == j) =
          elems.filter (fun e => decide (FirstNearest dist (vs.map (·.core)) (first e) j)) := by
        apply List.filter_congr
        intro e he
        have hn := (hgf e he).2
        by_cases e1 : gf e = j
        · rw [e1] at hn; simp [e1, hn]
        · have : ¬ FirstNearest dist (vs.map (·.core)) (first e) j := fun h2 => e1 (hn.unique h2)
          simp [e1, this]
      rw [hfil] at hb
      rw [List.getElem_zipWith]
      refine ⟨?_, ?_, rfl, rfl, ?_⟩
      · simp only [Voxel.set, if_true, hb]
      · simp only [Voxel.set, if_true, hb]
      · intro k hk; simp [Voxel.set, hk]

theorem partition_perm {E : Type} (l : List E) (n : Nat) (P : E → Nat → Bool)
    (h : ∀ e ∈ l, ∃ j, j < n ∧ ∀ k, P e k = true ↔ k = j) :
    ((List.range n).flatMap (fun j => l.filter (fun e => P e j))).Perm l := by
  induction l with
  | nil => simp
  | cons e l ih =>
    obtain ⟨j, hj, hP⟩ := h e List.mem_cons_self
    have ih := ih (fun x hx => h x (List.mem_cons_of_mem _ hx))
    obtain ⟨a, b, hab, hja, hjb⟩ : ∃ a b, List.range n = a ++ j :: b ∧ j ∉ a ∧ j ∉ b := by
      obtain ⟨a, b, hab⟩ := List.mem_iff_append.mp (List.mem_range.mpr hj)
      have hnd : (a ++ j :: b).Nodup := by rw [← hab]; exact List.nodup_range
      rw [List.nodup_append] at hnd
      obtain ⟨_, h2, h3⟩ := hnd
      refine ⟨a, b, hab, fun hm => ?_, (List.nodup_cons.mp h2).1⟩
      exact h3 j hm j List.mem_cons_self rfl
    rw [hab] at ih ⊢
    have hskip : ∀ c : List Nat, j ∉ c → c.flatMap (fun k => (e :: l).filter (fun x => P x k)) =
        c.flatMap (fun k => l.filter (fun x => P x k)) := by
      intro c hc
      rw [List.flatMap_def, List.flatMap_def]
      congr 1
      apply List.map_congr_left
      intro k hk
      rw [List.filter_cons_of_neg]
      intro hp
      rw [hP k] at hp
      subst hp
      exact hc hk
    rw [List.flatMap_append, List.flatMap_cons, hskip a hja, hskip b hjb,
      List.filter_cons_of_pos (p := fun x => P x j) ((hP j).mpr rfl)]
    rw [List.flatMap_append, List.flatMap_cons] at ih
    rw [List.cons_append]
    exact List.perm_middle.trans (ih.cons e)

open Classical in
omit [LinearOrder α] [BoundedOrder α] in
/-- **C31**, consequence: every element of the mesh ends up in exactly one voxel. -/
theorem C31_each_exactly_once {E : Type} (dist : Pt α → Pt α → δ) (first : E → Pt α) (lod : Nat) (elems : List E)
    (vs : List (Voxel α E)) (hne : vs ≠ []) (hempty : ∀ v ∈ vs, v.data lod = none)
    (hfin : ∀ v ∈ vs, ∀ e ∈ elems, dist v.core (first e) < ⊤) :
    ∃ ws, fillVoxel dist first lod elems vs = some ws ∧
      (ws.flatMap (fun w => (w.data lod).getD [])).Perm elems := by
  obtain ⟨ws, h1, h2, h3⟩ := C31_fill dist first lod elems vs hne hempty hfin
  refine ⟨ws, h1, ?_⟩
  have hws : ws.map (fun w => (w.data lod).getD []) = (List.range vs.length).map (fun j =>
      elems.filter (fun e => decide (FirstNearest dist (vs.map (·.core)) (first e) j))) := by
    apply List.ext_getElem
    · simp [h2]
    · intro j hj hj'
      rw [List.length_map] at hj
      rw [List.getElem_map, List.getElem_map, List.getElem_range, (h3 j (by omega) hj).1]
      rfl
  rw [List.flatMap_def, hws, ← List.flatMap_def]
  apply partition_perm
  intro e he
  obtain ⟨j, _, b⟩ := nearest_spec dist (vs.map (·.core)) (first e) (by simpa using hne)
    (fun c hc => by obtain ⟨v, hv, rfl⟩ := List.mem_map.mp hc; exact hfin v hv e he)
  refine ⟨j, ?_, ?_⟩
  · obtain ⟨c, hc, _⟩ := b
    have := (List.getElem?_eq_some_iff.mp hc).1
    simpa using this
  · intro k
    rw [decide_eq_true_iff]
    exact ⟨fun h => h.unique b, fun h => h ▸ b⟩

omit [LinearOrder α] [BoundedOrder α] in
/-- **C31**, limit: if the first voxel already has data at this level, nothing is done — even if that data
is of the other kind (segments instead of triangles). -/
theorem C31_second_fill_ignored {E : Type} (dist : Pt α → Pt α → δ) (first : E → Pt α) (lod : Nat) (elems : List E)
    (v : Voxel α E) (vs : List (Voxel α E)) (h : (v.data lod).isSome) :
    fillVoxel dist first lod elems (v :: vs) = some (v :: vs) := by
  unfold fillVoxel
  simp only [h, if_true]

/-- **C32**, the part that holds. Voxels are generated at full detail from the vertices `verts`. Later, any
element whose first point is one of these vertices (vertices keep their positions at every level of detail)
is put into a voxel whose box contains that first point; and with a single voxel all points of the element
are inside. Missing: the other points of an element, for which it is false
(`C32_counterexample`). `genDist` and `fillDist` are the two distance functions of the code, see
`C32_same_distance`. -/
theorem C32_first_point_inside_partial (genDist fillDist : Pt α → Pt α → δ) (hd : ∀ c p, genDist c p = fillDist c p)
    (junk : Pt α) (voxelSize : Nat) (skel verts : List (Pt α))
    (hfin : ∀ c ∈ skel, ∀ p ∈ verts, genDist c p < ⊤) :
    ∃ vs, generate genDist junk voxelSize skel verts = some vs ∧
      (verts.length < voxelSize ∨ skel.length ≤ 1 → ∃ v, vs = [v] ∧ ∀ p ∈ verts, v.box.Mem p) ∧
      ∀ p ∈ verts, ∀ j v, FirstNearest fillDist (vs.map (·.core)) p j → vs[j]? = some v → v.box.Mem p := by
  have hdd : genDist = fillDist := by funext c p; exact hd c p
  subst hdd
  have single : ∀ c : Pt α, ∃ vs, some [(⟨c, boundingBox verts, verts.length⟩ : Gen α)] = some vs ∧
      (verts.length < voxelSize ∨ skel.length ≤ 1 → ∃ v, vs = [v] ∧ ∀ p ∈ verts, v.box.Mem p) ∧
      ∀ p ∈ verts, ∀ j v, FirstNearest genDist (vs.map (·.core)) p j → vs[j]? = some v → v.box.Mem p := by
    intro c
    refine ⟨_, rfl, ?_, ?_⟩
    · intro _
      exact ⟨_, rfl, boundingBox_mem verts⟩
    · intro p hp j v _ hv
      have := List.mem_of_getElem? hv
      rw [List.mem_singleton] at this
      rw [this]
      exact boundingBox_mem verts p hp
  unfold generate
  split
  · exact single junk
  · split
    · exact single junk
    · exact single _
    · rename_i hs0 hs1
      have hlen : 2 ≤ skel.length := by
        match skel, hs0, hs1 with
        | [], h, _ => exact absurd rfl h
        | [c], _, h => exact absurd rfl (h c)
        | _ :: _ :: _, _, _ => simp
      obtain ⟨ws, k1, k2, k3⟩ := addVertices_spec genDist verts (skel.map (fun c => ⟨c, emptyBox, 0⟩))
        (by intro e; rw [List.map_eq_nil_iff] at e; rw [e] at hlen; simp at hlen)
        (by
          intro v hv p hp
          obtain ⟨c, hc, rfl⟩ := List.mem_map.mp hv
          exact hfin c hc p hp)
      rw [k1]
      refine ⟨_, rfl, fun h => by rcases h with h | h <;> omega, ?_⟩
      intro p hp j v hj hv
      obtain ⟨g, w, g1, g2, g3, g4⟩ := k3 p hp
      obtain ⟨a, a1, a2⟩ := firstMin_of_nearest genDist (·.core) ws p g g1
      rw [g2] at a1; cases a1
      obtain ⟨b, b1, b2⟩ := firstMin_of_nearest genDist (fun v : Gen α => v.core) _ p j hj
      have := firstMin_filter (fun a : Gen α => genDist a.core p) (fun v => !(v.size == 0)) ws none none (Or.inl rfl) w a2
        (by simp; omega)
      rw [this] at b2
      cases b2
      rw [hv] at b1
      cases b1
      exact g3

/-- The sampled skeleton points: `pickAll` never turns a flag off and sets at most one per turn. -/
theorem pickLoop_spec (tries : Nat) (keep : List Bool) (draws : List Nat)
    (hd : ∀ d ∈ draws, d < keep.length) (hn : tries ≤ draws.length) :
    ∃ keep' rest, pickLoop tries keep draws = some (keep', rest) ∧ keep'.length = keep.length ∧
      keep'.count true ≤ keep.count true + 1 ∧ (keep.count true ≤ keep'.count true) ∧
      (0 < tries → 0 < keep'.count true) ∧
      (∀ d ∈ rest, d ∈ draws) ∧ draws.length ≤ rest.length + tries := by
  induction tries generalizing draws with
  | zero => exact ⟨keep, draws, rfl, rfl, by omega, by omega, by simp, fun _ h => h, by omega⟩
  | succ t ih =>
    match draws, hn, hd with
    | d :: ds, hn, hd =>
      have hdl := hd d List.mem_cons_self
      rw [pickLoop, List.getElem?_eq_getElem hdl]
      cases hk : keep[d] with
      | true =>
        obtain ⟨k', r, h1, h2, h3, h4, h5, h6, h7⟩ := ih ds (fun x hx => hd x (List.mem_cons_of_mem _ hx))
          (by rw [List.length_cons] at hn; omega)
        refine ⟨k', r, h1, h2, h3, h4, fun _ => ?_, fun x hx => List.mem_cons_of_mem _ (h6 x hx), by rw [List.length_cons]; omega⟩
        have : 0 < keep.count true := List.count_pos_iff.mpr (hk ▸ List.getElem_mem hdl)
        omega
      | false =>
        have hcount : (keep.set d true).count true = keep.count true + 1 := by
          rw [List.count_set hdl]
          simp [hk]
        refine ⟨keep.set d true, ds, rfl, by rw [List.length_set], by omega, by omega, fun _ => by omega,
          fun x hx => List.mem_cons_of_mem _ hx, by rw [List.length_cons]; omega⟩

theorem pickAll_spec (n : Nat) (keep : List Bool) (draws : List Nat)
    (hd : ∀ d ∈ draws, d < keep.length) (hn : 10 * n ≤ draws.length) :
    ∃ keep', pickAll n keep draws = some keep' ∧ keep'.length = keep.length ∧
      keep'.count true ≤ keep.count true + n ∧ (keep.count true ≤ keep'.count true) ∧
      (0 < n → 0 < keep'.count true) := by
  induction n generalizing keep draws with
  | zero => exact ⟨keep, rfl, rfl, by omega, by omega, by simp⟩
  | succ n ih =>
    obtain ⟨k1, r, h1, h2, h3, h4, h5, h6, h7⟩ := pickLoop_spec 10 keep draws hd (by omega)
    obtain ⟨k2, g1, g2, g3, g4, g5⟩ := ih k1 r (fun d hd' => by rw [h2]; exact hd d (h6 d hd')) (by omega)
    refine ⟨k2, ?_, by rw [g2, h2], by omega, by omega, fun _ => ?_⟩
    · rw [pickAll, h1]; exact g1
    · have := h5 (by omega); omega

theorem zip_filter_length {A : Type} (l : List A) (keep : List Bool) (h : keep.length = l.length) :
    (((l.zip keep).filter (·.2)).map (·.1)).length = keep.count true := by
  induction l generalizing keep with
  | nil => cases keep with
    | nil => rfl
    | cons => simp at h
  | cons x l ih =>
    cases keep with
    | nil => simp at h
    | cons b keep =>
      have := ih keep (by simpa using h)
      cases b <;> simp at this ⊢ <;> omega

theorem zip_filter_sublist {A : Type} (l : List A) (keep : List Bool) :
    (((l.zip keep).filter (·.2)).map (·.1)).Sublist l := by
  refine (List.Sublist.map Prod.fst (List.filter_sublist (l := l.zip keep))).trans ?_
  induction l generalizing keep with
  | nil => simp
  | cons x l ih =>
    cases keep with
    | nil => simp
    | cons b keep => simpa using ih keep

/-- **C51.** For fewer wanted cores than skeleton points, whatever the random draws, sampling gives some of
the skeleton's points in their order: at least one and at most the wanted number. With more wanted cores than
points all points are returned. -/
theorem C51_sampling (numCores : Nat) (draws : List Nat) (skel : List (Pt α)) (hs : skel ≠ [])
    (hd : ∀ d ∈ draws, 1 ≤ d ∧ d ≤ numCores) (hn : 10 * numCores ≤ draws.length) :
    (skel.length < numCores → sample numCores draws skel = some skel) ∧
    (numCores < skel.length → ∃ r, sample numCores draws skel = some r ∧ r.Sublist skel ∧ r.length ≤ numCores ∧
      (0 < numCores → r ≠ [])) := by
  have h0 : ¬ skel.length = 0 := by simpa using hs
  constructor
  · intro h
    unfold sample
    rw [if_neg h0, if_pos h]
  · intro h
    obtain ⟨k, h1, h2, h3, _, h5⟩ := pickAll_spec numCores (List.replicate skel.length false) draws
      (fun d hd' => by rw [List.length_replicate]; have := hd d hd'; omega) hn
    rw [List.length_replicate] at h2
    have hl := zip_filter_length skel k h2
    unfold sample
    rw [if_neg h0, if_neg (by omega), h1]
    refine ⟨((skel.zip k).filter (·.2)).map (·.1), rfl, zip_filter_sublist skel k, ?_, ?_⟩
    · rw [hl]
      have : (List.replicate skel.length false).count true = 0 := List.count_eq_zero.mpr (by simp)
      omega
    · intro hc e
      rw [e] at hl
      have := h5 hc
      simp at hl
      omega

end

/-- **C32**, the two distance functions of the code give the same number, in any rounding. -/
theorem C32_same_distance (F : Fp) (p q : Pt ℚ) : pointDist F p q = ptDist F p q := pointDist_eq F p q

/-! ### Concrete cases on the points 0..255 -/

instance : BoundedOrder (Fin 256) := Fin.instBoundedOrder

/-- The point `(n, n, n)`. -/
def diag (n : Nat) : Pt (Fin 256) := fun _ => Fin.ofNat 256 n

/-- Squared distance on the first axis, with a top element for "infinity". -/
def dist1 (p q : Pt (Fin 256)) : WithTop Nat :=
  ((((p 0).val - (q 0).val) * ((p 0).val - (q 0).val) + ((q 0).val - (p 0).val) * ((q 0).val - (p 0).val) : Nat) : WithTop Nat)

/-- A voxel to fill. -/
def vox (core lo hi : Nat) : Voxel (Fin 256) (Nat × Nat) := ⟨diag core, ⟨diag lo, diag hi⟩, fun _ => none, fun _ => none⟩

example : (nearest dist1 [diag 10, diag 20, diag 20] (diag 17)) = some 1 := by decide +kernel
/-- Three edges in two voxels. -/
example : (fillVoxel dist1 (fun e : Nat × Nat => diag e.1) 100 [(1, 2), (19, 30), (2, 40)] [vox 5 0 9, vox 20 10 40]).map
    (fun ws => ws.map (fun w => (w.data 100, w.size 100))) = some [(some [(1, 2), (2, 40)], some 2), (some [(19, 30)], some 1)] := by
  decide +kernel

/-- **C32, counterexample.** Skeleton points 10 and 30, vertices 8, 12, 28, 32, an edge from 12 to 28: the edge
is stored in the first voxel, whose box is 8..12, so its other end is far outside. -/
theorem C32_counterexample :
    (generate dist1 (diag 0) 2 [diag 10, diag 30] [diag 8, diag 12, diag 28, diag 32]).map
      (fun vs => (nearest dist1 (vs.map (·.core)) (diag 12), vs.map (fun v => ((v.box.min 0).val, (v.box.max 0).val)),
        vs.map (fun v => v.box.containsPt (diag 28)))) = some (some 0, [(8, 12), (28, 32)], [false, true]) := by
  decide +kernel

/-- **C51, counterexample**: with exactly as many cores wanted as there are points, the draw `num_cores`
writes behind the array. -/
theorem C51_out_of_bounds : sample 2 [2, 1, 1] [diag 1, diag 2] = none := by decide +kernel

example : (sample 2 [2, 1, 1] [diag 1, diag 2, diag 3]).map (·.length) = some 2 := by decide +kernel

end TDP.Voxels
