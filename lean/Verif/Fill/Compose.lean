import Verif.Fill.Tri
/-! # Property C67: from the user's mesh to the geometry the kernels are given -/
namespace TDP.Fill
open TDP.Boxes TDP.EndToEnd TDP.Codec TDP.Kernels TDP.Quant

/-- Segment `s` stands for the edge `e` of `K` with ends `Q (K.vert e)` and `Q (K.src e)`: off by at most `h` per axis, and by
another 0.1 at the second end if `K` has both ends at the same position. -/
def NearSeg (h : ℚ) (Q : Nat → P3) (K : Mesh P3) (e : Nat) (s : Seg) : Prop :=
  ∀ i, |s.p i - Q (K.vert e) i| ≤ h ∧
    |s.q i - Q (K.src e) i| ≤ h + (if K.pos (K.vert e) = K.pos (K.src e) then 1 / 10 else 0)

/-- Triangle `t` stands for the corner `e` of a facet of `K` and the two that follow it. -/
def NearTri (h : ℚ) (Q : Nat → P3) (K : Mesh P3) (e : Nat) (t : Tri) : Prop :=
  ∀ i, |t.C i - Q (K.vert e) i| ≤ h ∧ |t.C i + t.P1 i - Q (K.vert (K.next e)) i| ≤ h ∧
    |t.C i + t.P2 i - Q (K.vert (K.next (K.next e))) i| ≤ h

/-- What the kernels are given for mesh `N`, which stands for `K`. -/
structure Given (h : ℚ) (Q : Nat → P3) (K N : Mesh P3) : Prop where
  segs : ∀ edges, EdgeEnum N edges → K.darts.card = 2 * (segments Fp.exact N edges).length ∧
    (∀ d ∈ K.darts, ∃ s ∈ segments Fp.exact N edges, NearSeg h Q K d s ∨ NearSeg h Q K (K.opp d) s) ∧
    (∀ s ∈ segments Fp.exact N edges, s.p ≠ s.q ∧ ∃ d ∈ K.darts, NearSeg h Q K d s)
  tris : ∀ facets, FacetEnum N facets → (K.darts.image K.face).card = (triangles Fp.exact N facets).length ∧
    (∀ d ∈ K.darts, K.next (K.next (K.next d)) = d → ∃ t ∈ triangles Fp.exact N facets,
      NearTri h Q K d t ∨ NearTri h Q K (K.next d) t ∨ NearTri h Q K (K.next (K.next d)) t) ∧
    (∀ t ∈ triangles Fp.exact N facets, ∃ d ∈ K.darts, NearTri h Q K d t)

theorem iso_card {ψ : Nat → Nat} {K N : Mesh P3} (i : Iso ψ K N) : N.darts.card = K.darts.card := by
  have : N.darts = K.darts.image ψ := by
    ext x
    rw [Finset.mem_image]
    constructor
    · intro hx; obtain ⟨d, hd, e⟩ := i.surj x hx; exact ⟨d, hd, e⟩
    · rintro ⟨d, hd, rfl⟩; exact i.mem d hd
  rw [this]
  exact Finset.card_image_of_injOn (fun x hx y hy h => i.inj x hx y hy h)

theorem given_of_iso {h : ℚ} {Q : Nat → P3} {K N : Mesh P3} {ψ : Nat → Nat} (hK : K.h.WF) (hN : N.h.WF) (i : Iso ψ K N)
    (hq : ∀ d ∈ K.darts, ∀ j, |N.pos (N.vert (ψ d)) j - Q (K.vert d) j| ≤ h) : Given h Q K N := by
  have hsrc : ∀ d ∈ K.darts, N.opp (ψ d) = ψ (K.opp d) := fun d hd => (i.opp d hd).symm
  have hnx : ∀ d ∈ K.darts, N.next (ψ d) = ψ (K.next d) := fun d hd => (i.next d hd).symm
  have hseg : ∀ d ∈ K.darts, NearSeg h Q K d (segOf Fp.exact N (ψ d)) := by
    intro d hd j
    have ho := hK.opp_mem d hd
    refine ⟨hq d hd j, ?_⟩
    have e1 : N.pos (N.vert (ψ d)) = K.pos (K.vert d) := i.pos d hd
    have e2 : N.pos (N.vert (N.opp (ψ d))) = K.pos (K.src d) := by rw [hsrc d hd]; exact i.pos _ ho
    have h2 := hq _ ho j
    rw [← hsrc d hd] at h2
    unfold segOf
    by_cases hj : j = 2
    · subst hj
      simp only [if_true, e1, Fp.exact, id]
      by_cases he : K.pos (K.vert d) = K.pos (K.src d)
      · rw [e2, if_pos he, if_pos he]
        rw [e2] at h2
        rw [abs_le] at h2 ⊢
        constructor <;> linarith [h2.1, h2.2]
      · rw [e2, if_neg he, if_neg he, mul_zero, add_zero, add_zero]
        rw [e2] at h2
        exact h2
    · simp only [if_neg hj]
      refine h2.trans ?_
      split <;> norm_num
  have htri : ∀ d ∈ K.darts, NearTri h Q K d (triOf Fp.exact N (ψ d)) := by
    intro d hd j
    have h1 := hK.next_mem d hd
    have h2 := hK.next_mem _ h1
    have a1 := hq _ h1 j
    have a2 := hq _ h2 j
    refine ⟨hq d hd j, ?_, ?_⟩
    · have : (triOf Fp.exact N (ψ d)).C j + (triOf Fp.exact N (ψ d)).P1 j = N.pos (N.vert (ψ (K.next d))) j := by
        rw [← hnx d hd]
        show N.pos (N.vert (ψ d)) j + (N.pos (N.vert (N.next (ψ d))) j - N.pos (N.vert (ψ d)) j) = _
        ring
      rw [this]; exact a1
    · have : (triOf Fp.exact N (ψ d)).C j + (triOf Fp.exact N (ψ d)).P2 j = N.pos (N.vert (ψ (K.next (K.next d)))) j := by
        have e := hnx _ h1
        rw [← hnx d hd] at e
        rw [← e]
        show N.pos (N.vert (ψ d)) j + (N.pos (N.vert (N.next (N.next (ψ d)))) j - N.pos (N.vert (ψ d)) j) = _
        ring
      rw [this]; exact a2
  constructor
  · intro edges he
    refine ⟨?_, ?_, ?_⟩
    · rw [← iso_card i, edges_card hN he]
      unfold segments; rw [List.length_map]
    · intro d hd
      rcases he.one _ (i.mem d hd) with ⟨h1, _⟩ | ⟨_, h1⟩
      · exact ⟨_, List.mem_map.2 ⟨_, h1, rfl⟩, Or.inl (hseg d hd)⟩
      · rw [show N.opp (ψ d) = ψ (K.opp d) from hsrc d hd] at h1
        exact ⟨_, List.mem_map.2 ⟨_, h1, rfl⟩, Or.inr (hseg _ (hK.opp_mem d hd))⟩
    · intro s hs
      refine ⟨(C65_segments Fp.exact hN he (fun _ _ => rfl)).2.2.2 (by
        intro d _ h
        have : N.pos (N.vert d) 2 + 1 / 10 = N.pos (N.vert d) 2 := h
        linarith) s hs, ?_⟩
      obtain ⟨x, hx, rfl⟩ := List.mem_map.1 hs
      obtain ⟨d, hd, rfl⟩ := i.surj x (he.mem x hx)
      exact ⟨d, hd, hseg d hd⟩
  · intro facets hf
    refine ⟨?_, ?_, ?_⟩
    · unfold triangles
      rw [List.length_map, ← facets_card hf]
      unfold sizeOfFacets
      refine Finset.card_bij (fun x _ => N.face (ψ ((K.darts.filter (fun d => K.face d = x)).min.untopD 0))) ?_ ?_ ?_
      all_goals
        have hrep : ∀ x ∈ K.darts.image K.face, (K.darts.filter (fun d => K.face d = x)).min.untopD 0 ∈ K.darts ∧
            K.face ((K.darts.filter (fun d => K.face d = x)).min.untopD 0) = x := by
          intro x hx
          obtain ⟨d, hd, hdx⟩ := Finset.mem_image.1 hx
          obtain ⟨b, hb⟩ := Finset.min_of_mem (s := K.darts.filter (fun d => K.face d = x)) (Finset.mem_filter.2 ⟨hd, hdx⟩)
          rw [hb]
          have := Finset.mem_of_min hb
          exact Finset.mem_filter.1 this
      · intro x hx
        exact Finset.mem_image.2 ⟨_, i.mem _ (hrep x hx).1, rfl⟩
      · intro x hx y hy h
        have := (i.face hK hN (hrep x hx).1 (hrep y hy).1).2 h
        rw [(hrep x hx).2, (hrep y hy).2] at this
        exact this
      · intro y hy
        obtain ⟨z, hz, rfl⟩ := Finset.mem_image.1 hy
        obtain ⟨d, hd, rfl⟩ := i.surj z hz
        have hx : K.face d ∈ K.darts.image K.face := Finset.mem_image.2 ⟨d, hd, rfl⟩
        exact ⟨K.face d, hx, (i.face hK hN (hrep _ hx).1 hd).1 (hrep _ hx).2⟩
    · intro d hd h3
      obtain ⟨k, ⟨e, hk, hke⟩, _⟩ := (C66_triangles_partial Fp.exact hN hf).2.1 _ (i.mem d hd)
      have hem := List.mem_of_getElem? hk
      obtain ⟨x, hx, rfl⟩ := i.surj e (hf.mem e hem)
      have hfx : K.face d = K.face x := ((i.face hK hN hx hd).2 hke).symm
      obtain ⟨n, hn⟩ := (hK.face_iff d hd x hx).1 hfx
      have key : ∀ n : Nat, K.next^[n] d = d ∨ K.next^[n] d = K.next d ∨ K.next^[n] d = K.next (K.next d) := by
        intro n
        induction n with
        | zero => exact Or.inl rfl
        | succ n ih =>
          rw [Function.iterate_succ_apply']
          rcases ih with h | h | h <;> rw [h]
          · exact Or.inr (Or.inl rfl)
          · exact Or.inr (Or.inr rfl)
          · exact Or.inl h3
      refine ⟨_, List.mem_map.2 ⟨_, hem, rfl⟩, ?_⟩
      have hn' : K.next^[n] d = x := hn
      have ht := htri x hx
      rcases key n with h | h | h <;> rw [hn'] at h <;> rw [h] at ht ⊢
      · exact Or.inl ht
      · exact Or.inr (Or.inl ht)
      · exact Or.inr (Or.inr ht)
    · intro t ht
      obtain ⟨x, hx, rfl⟩ := List.mem_map.1 ht
      obtain ⟨d, hd, rfl⟩ := i.surj x (hf.mem x hx)
      exact ⟨d, hd, htri d hd⟩

/-- **C67.** From the user's mesh to the kernels. Under the conditions of `C57_object`: compress the mesh `M0`, open the bytes
elsewhere, request any history of levels, and fill. With `K` the mesh of the level asked for (`C57_object`), whose vertices
are vertices of `M0`: there is one segment for every edge of `K`, none is a point, and its ends are the ends of the edge up to
half a quantisation step per axis (and 0.1 in z if both ends were put into the same cell of the grid); there is one triangle
for every facet of `K`, whose corners are, up to half a step, consecutive corners of the facet (all of them if it has three).
After a history containing 100, `K` has exactly the edges and facets of `M0`. -/
theorem C67_given (lg : Nat → Nat) (hlg : BaseMesh.LogOk lg) (value : Nat → ℚ) (F : Fp) (convex : Mesh P3 → Nat → Bool)
    (env env' : Env P3) (he : env.Ok) (he' : env'.Ok) (hd : Header)
    (hfl : hd.bb0 < 2 ^ 32 ∧ hd.bb1 < 2 ^ 32 ∧ hd.bb2 < 2 ^ 32 ∧ hd.step < 2 ^ 32)
    (hbits : 1 ≤ hd.quantBits ∧ hd.quantBits ≤ 14)
    (M0 : Mesh P3) (hM : M0.WF) (hs : M0.Sep) (first : Nat) (hc : M0.Conn first) (hdeg : ∀ d ∈ M0.darts, M0.deg d ≤ 10)
    (v : P3) (vs : List P3) (hvs : ∀ d ∈ M0.darts, M0.pos (M0.vert d) ∈ v :: vs)
    (hr : 0 < maxRange (bbMin v vs) (bbMax v vs))
    (hbb : value hd.bb0 = bbMin v vs 0 ∧ value hd.bb1 = bbMin v vs 1 ∧ value hd.bb2 = bbMin v vs 2)
    (hstep : value hd.step = quantStep (bbMin v vs) (bbMax v vs) hd.quantBits) :
    let M : Mesh P3 := { M0 with pos := fun u => quantizeVertex (initCfg hd.quantBits v vs) hd.quantBits (M0.pos u) }
    ∃ (L : List (Mesh P3 × LevelSyms Blocks.Vec)) (B : Mesh P3) (fuel : Nat),
      lodMesh L B 0 = M ∧
      ∀ size n, fuel ≤ n → 0 < L.length → L.length < 64 → (env.vorder B).length < 65536 → (env.gates B).length < 65536 →
        27 + 6 * (env.vorder B).length + 32 * (env.gates B).length ≤ size →
        ∃ data o, compress lg size (headerGrid value) convex env n hd M first = some data ∧
          openObj lg (headerGrid value) data = some o ∧
          ∀ n' ≥ fuel, ∀ ps : List Nat, (∀ p ∈ ps, p ≤ 100) →
            ∃ k o', runObj F (headerGrid value) env' n' (ps.map (↑)) o = some o' ∧
              k ≤ L.length ∧ Lod.IsLevel F L.length (ps.foldl max 0) k ∧
              Given (maxRange (bbMin v vs) (bbMax v vs) / 2 ^ hd.quantBits / 2) M0.pos (lodMesh L B (L.length - k)) o'.m ∧
              (100 ∈ ps →
                Given (maxRange (bbMin v vs) (bbMax v vs) / 2 ^ hd.quantBits / 2) M0.pos M o'.m) := by
  intro M
  obtain ⟨L, B, fuel, _, h0, h⟩ := C57_object lg hlg value F convex env env' he he' hd hfl hbits M0 hM hs first hc hdeg v vs hvs hr
    hbb hstep
  refine ⟨L, B, fuel, h0, ?_⟩
  intro size n a1 a2 a3 a4 a5 a6
  obtain ⟨data, o, b1, b2, h⟩ := h size n a1 a2 a3 a4 a5 a6
  refine ⟨data, o, b1, b2, ?_⟩
  intro n' c1 ps c2
  obtain ⟨k, o', ψ, d1, d2, d3, d4, d5, d6, d7, d8⟩ := h n' c1 ps c2
  refine ⟨k, o', d1, d2, d3, given_of_iso d4.h d6 d5 d7, ?_⟩
  intro e2
  obtain ⟨e3, e4, _⟩ := d8 e2
  rw [e3, Nat.sub_self, h0] at d7
  exact given_of_iso (wf_pos hM _).h d6 e4 d7

end TDP.Fill
