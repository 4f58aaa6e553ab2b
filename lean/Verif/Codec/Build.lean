import Verif.Codec.BuildModel
import Verif.Codec.Equiv
import Verif.Codec.Center
/-! The builder rebuilds the mesh from its face lists. -/
namespace TDP.Codec
open TDP.Traversal Function

variable {P : Type}

theorem mem_slots (faces : List (List Nat)) (d : Nat) :
    d ∈ slots faces ↔ d.unpair.1 < faces.length ∧ d.unpair.2 < (faces.getD d.unpair.1 []).length := by
  unfold slots
  rw [List.mem_flatMap]
  constructor
  · rintro ⟨f, hf, h⟩
    obtain ⟨j, hj, rfl⟩ := List.mem_map.mp h
    rw [Nat.unpair_pair]
    exact ⟨List.mem_range.mp hf, List.mem_range.mp hj⟩
  · rintro ⟨h1, h2⟩
    exact ⟨d.unpair.1, List.mem_range.mpr h1, List.mem_map.mpr ⟨d.unpair.2, List.mem_range.mpr h2, Nat.pair_unpair d⟩⟩

/-- `gates` has exactly one halfedge of every facet. -/
structure OnePerFacet (m : Mesh P) (gates : List Nat) : Prop where
  mem : ∀ g ∈ gates, g ∈ m.darts
  nodup : (gates.map m.face).Nodup
  cover : ∀ d ∈ m.darts, ∃ g ∈ gates, m.face g = m.face d

theorem build_iso [Inhabited P] {B : Mesh P} (hB : B.WF) {gates : List Nat} (hg : OnePerFacet B gates) (id : Nat → Nat)
    (hid : ∀ d ∈ B.darts, ∀ e ∈ B.darts, id (B.vert d) = id (B.vert e) → B.vert d = B.vert e) (pts : List P)
    (hpts : ∀ d ∈ B.darts, pts[id (B.vert d)]? = some (B.pos (B.vert d))) :
    ∃ N φ, buildMesh (faceLists B gates id) pts = some N ∧ Iso φ B N ∧ N.h.WF ∧ N.Fresh ∧
      ∀ d ∈ B.darts, N.vert (φ d) = id (B.vert d) := by
  classical
  generalize hF : faceLists B gates id = faces
  have flen : faces.length = gates.length := by rw [← hF]; simp [faceLists]
  have fget : ∀ f (hf : f < gates.length), faces.getD f [] = (around B.h gates[f]).map (fun d => id (B.vert d)) := by
    intro f hf
    rw [← hF, List.getD_eq_getElem?_getD]
    simp [faceLists, hf]
  let θ : Nat → Nat := fun d => (around B.h (gates.getD d.unpair.1 0)).getD d.unpair.2 0
  -- a slot and what it stands for
  have slot : ∀ d ∈ slots faces, ∃ g ∈ B.darts, gates[d.unpair.1]? = some g ∧ g ∈ gates ∧
      d.unpair.2 < minimalPeriod B.next g ∧ (faces.getD d.unpair.1 []).length = minimalPeriod B.next g ∧
      θ d = B.next^[d.unpair.2] g ∧ bvert faces d = id (B.vert (θ d)) := by
    intro d hd
    obtain ⟨h1, h2⟩ := (mem_slots faces d).mp hd
    rw [flen] at h1
    have hgm := hg.mem _ (List.getElem_mem h1)
    have ha : around B.h gates[d.unpair.1] = (List.range (minimalPeriod B.next gates[d.unpair.1])).map (fun i => B.next^[i] gates[d.unpair.1]) :=
      around_eq hB.h hgm
    rw [fget _ h1] at h2 ⊢
    rw [List.length_map, ha, List.length_map, List.length_range] at h2
    have e1 : gates.getD d.unpair.1 0 = gates[d.unpair.1] := by
      rw [List.getD_eq_getElem?_getD, List.getElem?_eq_getElem h1]; rfl
    have e2 : θ d = B.next^[d.unpair.2] gates[d.unpair.1] := by
      change (around B.h (gates.getD d.unpair.1 0)).getD d.unpair.2 0 = _
      rw [e1, ha, List.getD_eq_getElem?_getD]
      simp [h2]
    refine ⟨_, hgm, List.getElem?_eq_getElem h1, List.getElem_mem h1, h2, ?_, e2, ?_⟩
    · rw [List.length_map, ha, List.length_map, List.length_range]
    · unfold bvert
      rw [fget _ h1, e2, ha, List.getD_eq_getElem?_getD]
      simp [h2]
  have θmem : ∀ d ∈ slots faces, θ d ∈ B.darts := by
    intro d hd
    obtain ⟨g, h1, _, _, _, _, h2, _⟩ := slot d hd
    rw [h2]; exact iterate_mem hB.h.next_mem h1 _
  have θface : ∀ d ∈ slots faces, ∀ g, gates[d.unpair.1]? = some g → B.face (θ d) = B.face g := by
    intro d hd g hgg
    obtain ⟨g', h1, h3, _, _, _, h2, _⟩ := slot d hd
    rw [h3] at hgg
    injection hgg with hgg
    subst hgg
    exact ((hB.h.face_iff _ h1 _ (θmem d hd)).mpr ⟨_, h2.symm⟩).symm
  -- same facet, same list
  have samef : ∀ d ∈ slots faces, ∀ e ∈ slots faces, B.face (θ d) = B.face (θ e) → d.unpair.1 = e.unpair.1 := by
    intro d hd e he h
    obtain ⟨g, _, h1, _⟩ := slot d hd
    obtain ⟨g', _, h2, _⟩ := slot e he
    rw [θface d hd g h1, θface e he g' h2] at h
    have hl1 : d.unpair.1 < gates.length := by rw [← flen]; exact ((mem_slots faces d).mp hd).1
    have hl2 : e.unpair.1 < gates.length := by rw [← flen]; exact ((mem_slots faces e).mp he).1
    rw [List.getElem?_eq_getElem hl1] at h1
    rw [List.getElem?_eq_getElem hl2] at h2
    injection h1 with h1
    injection h2 with h2
    have := (List.Nodup.getElem_inj_iff hg.nodup (i := d.unpair.1) (j := e.unpair.1) (hi := by simpa using hl1) (hj := by simpa using hl2)).mp
      (by rw [List.getElem_map, List.getElem_map, h1, h2, h])
    exact this
  have θinj : ∀ d ∈ slots faces, ∀ e ∈ slots faces, θ d = θ e → d = e := by
    intro d hd e he h
    have hf := samef d hd e he (by rw [h])
    obtain ⟨g, h1, h2, _, h3, _, h4, _⟩ := slot d hd
    obtain ⟨g', h1', h2', _, h3', _, h4', _⟩ := slot e he
    rw [← hf, h2] at h2'
    injection h2' with h2'
    subst h2'
    rw [h4, h4'] at h
    have := iterate_injOn_Iio_minimalPeriod h3 h3' h
    rw [← Nat.pair_unpair d, ← Nat.pair_unpair e, hf, this]
  have θsurj : ∀ x ∈ B.darts, ∃ d, d ∈ slots faces ∧ θ d = x := by
    intro x hx
    obtain ⟨g, hgm, hgf⟩ := hg.cover x hx
    have hxa : x ∈ around B.h g := (mem_around hB.h (hg.mem g hgm) x).mpr ⟨hx, hgf.symm⟩
    obtain ⟨f, hf, rfl⟩ := List.getElem_of_mem hgm
    obtain ⟨j, hj, hjx⟩ := List.getElem_of_mem hxa
    refine ⟨Nat.pair f j, ?_, ?_⟩
    · rw [mem_slots, Nat.unpair_pair, flen]
      refine ⟨hf, ?_⟩
      rw [fget f hf, List.length_map]; exact hj
    · change (around B.h (gates.getD (Nat.pair f j).unpair.1 0)).getD (Nat.pair f j).unpair.2 0 = _
      rw [Nat.unpair_pair]
      simp only [List.getD_eq_getElem?_getD, List.getElem?_eq_getElem hf, Option.getD_some]
      rw [List.getElem?_eq_getElem hj, hjx]; rfl
  -- moving around the facet
  have nexts : ∀ d ∈ slots faces, bnext faces d ∈ slots faces ∧ θ (bnext faces d) = B.next (θ d) := by
    intro d hd
    obtain ⟨g, h1, h2, h2', h3, h4, h5, _⟩ := slot d hd
    obtain ⟨m1, m2⟩ := (mem_slots faces d).mp hd
    have hm : bnext faces d ∈ slots faces := by
      rw [mem_slots]
      unfold bnext
      rw [Nat.unpair_pair]
      refine ⟨m1, ?_⟩
      split <;> simp only <;> omega
    refine ⟨hm, ?_⟩
    obtain ⟨g', _, h2'', _, _, _, h5', _⟩ := slot _ hm
    have e : (bnext faces d).unpair.1 = d.unpair.1 := by unfold bnext; rw [Nat.unpair_pair]
    rw [e, h2] at h2''
    injection h2'' with h2''
    subst h2''
    rw [h5', h5, ← iterate_succ_apply' B.next]
    have e2 : (bnext faces d).unpair.2 = if d.unpair.2 + 1 = (faces.getD d.unpair.1 []).length then 0 else d.unpair.2 + 1 := by
      unfold bnext; rw [Nat.unpair_pair]
    rw [e2]
    split
    · rename_i hh
      rw [h4] at hh
      rw [show d.unpair.2.succ = minimalPeriod B.next g from hh, iterate_minimalPeriod]; rfl
    · rfl
  have prevs : ∀ d ∈ slots faces, bprev faces d ∈ slots faces ∧ bnext faces (bprev faces d) = d := by
    intro d hd
    obtain ⟨m1, m2⟩ := (mem_slots faces d).mp hd
    constructor
    · rw [mem_slots]
      unfold bprev
      rw [Nat.unpair_pair]
      refine ⟨m1, ?_⟩
      split <;> simp only <;> omega
    · unfold bnext bprev
      simp only [Nat.unpair_pair]
      conv_rhs => rw [← Nat.pair_unpair d]
      congr 1
      by_cases h0 : d.unpair.2 = 0
      · rw [if_pos h0, if_pos (by omega), h0]
      · rw [if_neg h0, if_neg (by omega)]; omega
  have vS : ∀ d ∈ slots faces, bvert faces d = id (B.vert (θ d)) := fun d hd => by
    obtain ⟨_, _, _, _, _, _, _, h⟩ := slot d hd; exact h
  have sS : ∀ d ∈ slots faces, bsrc faces d = id (B.src (θ d)) := by
    intro d hd
    obtain ⟨p1, p2⟩ := prevs d hd
    unfold bsrc
    rw [vS _ p1]
    have := (nexts _ p1).2
    rw [p2] at this
    rw [this, hB.src_next _ (θmem _ p1)]
  have ends : ∀ x ∈ B.darts, ∀ y ∈ B.darts, id (B.vert x) = id (B.vert y) → id (B.src x) = id (B.src y) → x = y := by
    intro x hx y hy h1 h2
    exact hB.simple x hx y hy (hid _ (hB.opp_mem hx) _ (hB.opp_mem hy) h2) (hid x hx y hy h1)
  have opps : ∀ d ∈ slots faces, ∃ e ∈ slots faces, bopp? faces d = some e ∧ θ e = B.opp (θ d) := by
    intro d hd
    have hx := θmem d hd
    obtain ⟨e, he, hee⟩ := θsurj _ (hB.opp_mem hx)
    have hsome : (bopp? faces d).isSome := by
      unfold bopp?
      rw [List.find?_isSome]
      refine ⟨e, he, ?_⟩
      rw [vS e he, sS e he, vS d hd, sS d hd, hee, hB.src_opp hx]
      simp
    obtain ⟨e', he'⟩ := Option.isSome_iff_exists.mp hsome
    have hm := List.mem_of_find?_eq_some he'
    have hp := List.find?_some he'
    refine ⟨e', hm, he', ?_⟩
    simp only [Bool.and_eq_true, beq_iff_eq] at hp
    rw [vS _ hm, sS _ hm, vS d hd, sS d hd] at hp
    refine ends _ (θmem _ hm) _ (hB.opp_mem hx) hp.1 ?_
    rw [hB.src_opp hx]; exact hp.2
  let opp' : Nat → Nat := fun d => (bopp? faces d).getD d
  have oppS : ∀ d ∈ slots faces, opp' d ∈ slots faces ∧ θ (opp' d) = B.opp (θ d) := by
    intro d hd
    obtain ⟨e, he, h1, h2⟩ := opps d hd
    have : opp' d = e := by change (bopp? faces d).getD d = e; rw [h1]; rfl
    rw [this]; exact ⟨he, h2⟩
  have hlt : ∀ d ∈ slots faces, bvert faces d < pts.length := by
    intro d hd
    rw [vS d hd]
    have := hpts _ (θmem d hd)
    by_contra hc
    rw [List.getElem?_eq_none (by omega)] at this
    exact absurd this (by simp)
  let N : Mesh P :=
    { darts := (slots faces).toFinset
      next := bnext faces
      opp := opp'
      face := fun d => d.unpair.1
      vert := bvert faces
      pos := fun v => pts.getD v default
      nd := (slots faces).toFinset.sup (fun x => x) + 1
      nf := faces.length
      nv := pts.length }
  have hbuild : buildMesh faces pts = some N := by
    unfold buildMesh
    rw [if_pos]
    · rfl
    · rw [List.all_eq_true]
      intro d hd
      rw [Bool.and_eq_true, Bool.and_eq_true]
      refine ⟨⟨decide_eq_true (hlt d hd), ?_⟩, ?_⟩
      · obtain ⟨e, _, h, _⟩ := opps d hd
        rw [h]; rfl
      · rw [List.all_eq_true]
        intro e he
        rw [Bool.or_eq_true, beq_iff_eq]
        by_cases h : bvert faces e = bvert faces d ∧ bsrc faces e = bsrc faces d
        · right
          rw [vS e he, sS e he, vS d hd, sS d hd] at h
          exact θinj e he d hd (ends _ (θmem e he) _ (θmem d hd) h.1 h.2)
        · left
          rw [Bool.not_eq_true', Bool.and_eq_false_iff, beq_eq_false_iff_ne, beq_eq_false_iff_ne]
          rcases not_and_or.mp h with h | h
          · exact Or.inl h
          · exact Or.inr h
  have mN : ∀ d, d ∈ N.darts ↔ d ∈ slots faces := fun d => List.mem_toFinset
  have nit : ∀ d ∈ slots faces, ∀ i, (bnext faces)^[i] d ∈ slots faces ∧ θ ((bnext faces)^[i] d) = B.next^[i] (θ d) := by
    intro d hd i
    induction i with
    | zero => exact ⟨hd, rfl⟩
    | succ i ih =>
      rw [iterate_succ_apply', iterate_succ_apply']
      exact ⟨(nexts _ ih.1).1, by rw [(nexts _ ih.1).2, ih.2]⟩
  have wfN : N.h.WF := by
    refine ⟨?_, ?_, ?_, ?_, ?_, ?_⟩
    · intro d hd
      exact (mN _).mpr (nexts d ((mN d).mp hd)).1
    · intro d hd
      exact (mN _).mpr (oppS d ((mN d).mp hd)).1
    · intro d hd e he h
      have hd' := (mN d).mp hd
      have he' := (mN e).mp he
      have h' : bnext faces d = bnext faces e := h
      refine θinj d hd' e he' (hB.next_inj (θmem d hd') (θmem e he') ?_)
      rw [← (nexts d hd').2, ← (nexts e he').2, h']
    · intro d hd
      have hd' := (mN d).mp hd
      obtain ⟨o1, o2⟩ := oppS d hd'
      obtain ⟨o3, o4⟩ := oppS _ o1
      refine θinj _ o3 d hd' ?_
      rw [o4, o2, hB.opp_opp (θmem d hd')]
    · intro d hd h
      have hd' := (mN d).mp hd
      have h' : opp' d = d := h
      have := (oppS d hd').2
      rw [h'] at this
      exact hB.opp_ne (θmem d hd') this.symm
    · intro d hd e he
      have hd' := (mN d).mp hd
      have he' := (mN e).mp he
      change d.unpair.1 = e.unpair.1 ↔ ∃ i, (bnext faces)^[i] d = e
      constructor
      · intro h
        obtain ⟨g, _, h1, _⟩ := slot d hd'
        have h2 := h1
        rw [h] at h2
        obtain ⟨i, hi⟩ := (hB.h.face_iff _ (θmem d hd') _ (θmem e he')).mp
          ((θface d hd' g h1).trans (θface e he' g h2).symm)
        exact ⟨i, θinj _ (nit d hd' i).1 e he' (by rw [(nit d hd' i).2]; exact hi)⟩
      · rintro ⟨i, hi⟩
        refine samef d hd' e he' ?_
        refine (hB.h.face_iff _ (θmem d hd') _ (θmem e he')).mpr ⟨i, ?_⟩
        rw [← hi]; exact (nit d hd' i).2.symm
  let φ : Nat → Nat := fun x => if h : x ∈ B.darts then (θsurj x h).choose else 0
  have φs : ∀ x ∈ B.darts, φ x ∈ slots faces ∧ θ (φ x) = x := by
    intro x hx
    have : φ x = (θsurj x hx).choose := dif_pos hx
    rw [this]; exact (θsurj x hx).choose_spec
  refine ⟨N, φ, hbuild, ⟨?_, ?_, ?_, ?_, ?_, ?_, ?_⟩, wfN, ?_, ?_⟩
  · intro x hx; exact (mN _).mpr (φs x hx).1
  · intro x hx y hy h
    have := congrArg θ h
    rwa [(φs x hx).2, (φs y hy).2] at this
  · intro d hd
    have hd' := (mN d).mp hd
    exact ⟨θ d, θmem d hd', θinj _ (φs _ (θmem d hd')).1 d hd' (φs _ (θmem d hd')).2⟩
  · intro x hx
    obtain ⟨n1, n2⟩ := nexts _ (φs x hx).1
    refine θinj _ (φs _ (hB.next_mem hx)).1 _ n1 ?_
    rw [(φs _ (hB.next_mem hx)).2, n2, (φs x hx).2]
  · intro x hx
    obtain ⟨n1, n2⟩ := oppS _ (φs x hx).1
    refine θinj _ (φs _ (hB.opp_mem hx)).1 _ n1 ?_
    rw [(φs _ (hB.opp_mem hx)).2, n2, (φs x hx).2]
  · intro x hx y hy
    change _ ↔ bvert faces (φ x) = bvert faces (φ y)
    rw [vS _ (φs x hx).1, vS _ (φs y hy).1, (φs x hx).2, (φs y hy).2]
    exact ⟨fun h => by rw [h], fun h => hid x hx y hy h⟩
  · intro x hx
    change pts.getD (bvert faces (φ x)) default = _
    rw [vS _ (φs x hx).1, (φs x hx).2, List.getD_eq_getElem?_getD, hpts x hx]; rfl
  · intro d hd
    have hd' := (mN d).mp hd
    refine ⟨?_, ((mem_slots faces d).mp hd').1, hlt d hd'⟩
    exact Nat.lt_succ_of_le (Finset.le_sup (f := fun x => x) hd)
  · intro x hx
    change bvert faces (φ x) = _
    rw [vS _ (φs x hx).1, (φs x hx).2]

end TDP.Codec
