import Verif.Codec.CutStep
import Verif.Codec.JoinF
import Verif.Codec.Insert
import Verif.Codec.Equiv
import Verif.Codec.Sep
/-! Coding and decoding one level. -/
namespace TDP.Codec
open TDP.Traversal Function

variable {P V : Type}

theorem Iso.card {φ : Nat → Nat} {K N : Mesh P} (i : Iso φ K N) : N.darts.card = K.darts.card := by
  classical
  have : N.darts = K.darts.image φ := by
    ext x
    rw [Finset.mem_image]
    constructor
    · intro hx; obtain ⟨d, hd, h⟩ := i.surj x hx; exact ⟨d, hd, h⟩
    · rintro ⟨d, hd, rfl⟩; exact i.mem d hd
  rw [this, Finset.card_image_of_injOn (fun d hd e he h => i.inj d hd e he h)]

/-- What the face pass of a level does in both programs. -/
theorem faces_level {K N : Mesh P} {φ : Nat → Nat} (i : Iso φ K N) (hK : K.h.WF) (hN : N.h.WF) {h0 : Nat} (hc : K.Conn h0)
    {n : Nat} (hn : K.darts.card + 2 ≤ n) (sy : Nat → Option V) {gs : List Nat}
    (hv : Visits K.h [h0] (fun _ => false) gs) :
    ∃ flag res, decodeFaces N.h n [φ h0] (fun _ => .unknown) (fun _ => none) (gs.map sy) =
        some (gs.map φ, flag, res, []) ∧
      (∀ g ∈ gs, flag (N.face (φ g)) = Flag.ofSym (sy g) ∧ res (N.face (φ g)) = sy g) ∧
      (∀ d ∈ K.darts, ∃ g ∈ gs, K.face g = K.face d) ∧ (∀ g ∈ gs, g ∈ K.darts) := by
  classical
  have hq : ∀ d ∈ [h0], d ∈ K.darts := by simpa using hc.1
  have hq' : ∀ d ∈ [φ h0], d ∈ N.darts := by simpa using i.mem h0 hc.1
  obtain ⟨a1, a2, a3, a4⟩ := hv.spec hK hq
  simp only [Bool.false_eq_true, false_or] at a3 a4
  have gK : ∀ g ∈ gs, g ∈ K.darts := fun g hg => (a1 g hg).1
  have cover : ∀ d ∈ K.darts, ∃ g ∈ gs, K.face g = K.face d := by
    intro d hd
    have main : ∀ d, Reach K.h h0 d → d ∈ K.darts ∧ K.face d ∈ gs.map K.face := by
      intro d hr
      induction hr with
      | refl => exact ⟨hc.1, a3 h0 (by simp)⟩
      | tail _ hstep ih =>
        rename_i b c hb
        obtain ⟨hbm, hbf⟩ := ih
        rcases hstep with rfl | rfl
        · refine ⟨hK.next_mem b hbm, ?_⟩
          have e : K.face b = K.face (K.next b) := (hK.face_iff b hbm _ (hK.next_mem b hbm)).mpr ⟨1, rfl⟩
          change K.face (K.next b) ∈ _
          rwa [← e]
        · exact ⟨hK.opp_mem b hbm, a4 b hbm hbf⟩
    obtain ⟨g, hg, e⟩ := List.mem_map.mp (main d (hc.2 d hd)).2
    exact ⟨g, hg, e⟩
  have hv' := i.visits hK hN (proc' := fun _ => false) hv hq (fun _ _ => rfl)
  -- the symbol of a facet of the copy
  let sym : Nat → Option V := fun f => if h : ∃ g ∈ gs, N.face (φ g) = f then sy h.choose else none
  have hsym : ∀ g ∈ gs, sym (N.face (φ g)) = sy g := by
    intro g hg
    have h : ∃ x ∈ gs, N.face (φ x) = N.face (φ g) := ⟨g, hg, rfl⟩
    have e : h.choose = g := by
      obtain ⟨c1, c2⟩ := h.choose_spec
      generalize h.choose = x at c1 c2
      have hf := (i.face hK hN (gK x c1) (gK g hg)).mpr c2
      exact List.inj_on_of_nodup_map a2 c1 hg hf
    simp only [sym, dif_pos h, e]
  have hlen : [φ h0].length + unproc N.h (fun f => ((fun _ => Flag.unknown) f).conquered) < n := by
    have : unproc N.h (fun f => ((fun _ => Flag.unknown) f).conquered) ≤ N.darts.card := Finset.card_filter_le _ _
    rw [i.card] at this
    rw [List.length_singleton]; omega
  obtain ⟨flag, res, e1, e2⟩ := decodeFaces_of_visits hN sym n [φ h0] (fun _ => .unknown) (fun _ => none) (gs.map φ) hq' hlen hv' []
  have em : (gs.map φ).map (fun g => sym (N.face g)) = gs.map sy := by
    rw [List.map_map]
    exact List.map_congr_left (fun g hg => hsym g hg)
  rw [List.append_nil] at e1
  change decodeFaces N.h n [φ h0] _ _ ((gs.map φ).map (fun g => sym (N.face g))) = _ at e1
  rw [em] at e1
  refine ⟨flag, res, e1, ?_, cover, gK⟩
  intro g hg
  have := (e2 (N.face (φ g))).1 (List.mem_map.mpr ⟨φ g, List.mem_map.mpr ⟨g, hg, rfl⟩, rfl⟩)
  rw [hsym g hg] at this
  exact this

/-- What the edge pass of a level does in both programs. -/
theorem edges_level {K N : Mesh P} {φ : Nat → Nat} (i : Iso φ K N) (hK : K.h.WF) (hN : N.h.WF) {h0 : Nat} (hc : K.Conn h0)
    (hsep : K.face (K.opp h0) ≠ K.face h0)
    {n : Nat} (hn : K.darts.card * K.darts.card + 2 ≤ n) {flag flag' : Nat → Flag} {added : Nat → Bool}
    (hu : ∀ d ∈ K.darts, flag (K.face d) ≠ .unknown) (hfl : ∀ d ∈ K.darts, flag' (N.face (φ d)) = flag (K.face d))
    (haf : ∀ d ∈ K.darts, added d = true → flag (K.face d) = .splittable ∨ flag (K.face (K.opp d)) = .splittable)
    (hao : ∀ d ∈ K.darts, added d = true → added (K.opp d) = true) :
    ∃ es syms, codeEdges K.h flag added n [h0] (fun _ => false) = some (es, syms) ∧
      ∃ marked, decodeEdges N.h flag' (fun _ => false) n [φ h0] (fun _ => false) (fun _ => false) syms =
          some (es.map φ, marked, []) ∧
        (∀ x, marked x = true → ∃ d ∈ K.darts, φ d = x ∧ added d = true ∧ marked (N.opp x) = false) ∧
        (∀ d ∈ K.darts, added d = true → marked (φ d) = true ∨ marked (N.opp (φ d)) = true) := by
  classical
  have hq : ∀ d ∈ [h0], d ∈ K.darts := by simpa using hc.1
  have hq' : ∀ d ∈ [φ h0], d ∈ N.darts := by simpa using i.mem h0 hc.1
  have ko : ∀ d ∈ K.darts, K.opp d ∈ K.darts := hK.opp_mem
  have hmeas : ∀ m : Mesh P, ∀ x, m.darts.card = K.darts.card → emeasure m.h [x] (fun _ => false) < n := by
    intro m x hm
    have h0 : eunproc m.h (fun _ => false) ≤ m.darts.card := Finset.card_filter_le _ _
    have h1 := Nat.mul_le_mul_left m.darts.card h0
    unfold emeasure
    rw [List.length_singleton]
    change 1 + m.darts.card * eunproc m.h (fun _ => false) < n
    rw [hm] at h1 ⊢
    omega
  obtain ⟨gs, hv⟩ := evisits_exists hK _ [h0] (fun _ => false) hq le_rfl
  obtain ⟨a1, a2, a3, _⟩ := hv.spec hK hq (fun _ _ => rfl)
  have gK : ∀ g ∈ gs, g ∈ K.darts := fun g hg => (a1 g hg).1
  have hcov := hv.covers hK hc.1 hsep
  have hv' := i.evisits hK hN (proc' := fun _ => false) hv hq (fun _ _ => rfl)
  let added' : Nat → Bool := fun x => decide (∃ d ∈ K.darts, φ d = x ∧ added d = true)
  have hadd : ∀ d ∈ K.darts, added' (φ d) = added d := by
    intro d hd
    by_cases h : added d = true
    · rw [h]; exact decide_eq_true ⟨d, hd, rfl, h⟩
    · have : ¬ ∃ e ∈ K.darts, φ e = φ d ∧ added e = true := by
        rintro ⟨e, he, h1, h2⟩
        rw [i.inj e he d hd h1] at h2; exact h h2
      rw [Bool.not_eq_true] at h
      rw [h]; exact decide_eq_false this
  have hcod : ∀ d ∈ K.darts, coded N.h flag' (φ d) = coded K.h flag d := by
    intro d hd
    change (!(flag' (N.face (φ d)) == .unsplittable && flag' (N.face (N.opp (φ d))) == .unsplittable)) =
      (!(flag (K.face d) == .unsplittable && flag (K.face (K.opp d)) == .unsplittable))
    rw [hfl d hd, ← i.opp d hd, hfl _ (ko d hd)]
  have hu' : ∀ x ∈ N.darts, flag' (N.face x) ≠ .unknown := by
    intro x hx
    obtain ⟨d, hd, rfl⟩ := i.surj x hx
    rw [hfl d hd]; exact hu d hd
  refine ⟨gs, _, codeEdges_of_visits hK flag added n _ _ gs hq (hmeas K h0 rfl) hv, ?_⟩
  have hdec := decodeEdges_of_visits hN flag' added' hu' n [φ h0] (fun _ => false) (gs.map φ) (fun _ => false) hq'
    (hmeas N _ i.card) hv' []
  have e0 : (gs.map φ).filter (coded N.h flag') = (gs.filter (coded K.h flag)).map φ := by
    rw [List.filter_map]
    congr 1
    exact List.filter_congr (fun d hd => hcod d (gK d hd))
  have e1 : ((gs.filter (coded K.h flag)).map φ).map added' = (gs.filter (coded K.h flag)).map added := by
    rw [List.map_map]
    exact List.map_congr_left (fun d hd => hadd d (gK d (List.mem_filter.mp hd).1))
  rw [e0, e1, List.append_nil] at hdec
  have hmk : ∀ x, markAll (fun _ => false) (((gs.filter (coded K.h flag)).map φ).filter added') x = true ↔
      ∃ d ∈ gs, φ d = x ∧ added d = true ∧ coded K.h flag d = true := by
    intro x
    unfold markAll
    rw [Bool.false_or, List.contains_iff_mem, List.mem_filter, List.mem_map]
    constructor
    · rintro ⟨⟨d, hd, rfl⟩, h2⟩
      obtain ⟨h3, h4⟩ := List.mem_filter.mp hd
      rw [hadd d (gK d h3)] at h2
      exact ⟨d, h3, rfl, h2, h4⟩
    · rintro ⟨d, hd, rfl, h2, h3⟩
      exact ⟨⟨d, List.mem_filter.mpr ⟨hd, h3⟩, rfl⟩, by rw [hadd d (gK d hd)]; exact h2⟩
  have hcs : ∀ d ∈ K.darts, added d = true → coded K.h flag d = true := by
    intro d hd ha
    change (!(flag (K.face d) == .unsplittable && flag (K.face (K.opp d)) == .unsplittable)) = true
    rcases haf d hd ha with h | h <;> rw [h] <;> simp
  refine ⟨_, hdec, ?_, ?_⟩
  · intro x hx
    obtain ⟨d, hd, rfl, h2, h3⟩ := (hmk x).mp hx
    refine ⟨d, gK d hd, rfl, h2, ?_⟩
    rw [← Bool.not_eq_true]
    intro h
    obtain ⟨e, he, h4, _⟩ := (hmk _).mp h
    rw [← i.opp d (gK d hd)] at h4
    have := i.inj e (gK e he) _ (ko d (gK d hd)) h4
    exact a3 d hd (by change K.opp d ∈ gs; rw [← this]; exact he)
  · intro d hd ha
    rcases hcov d (hc.2 d hd) with h | h
    · exact Or.inl ((hmk _).mpr ⟨d, h, rfl, ha, hcs d hd ha⟩)
    · refine Or.inr ((hmk _).mpr ⟨K.opp d, h, i.opp d hd, hao d hd ha, hcs _ (ko d hd) (hao d hd ha)⟩)

theorem joins_counters (l : List Nat) (m : Mesh P) : (l.foldl joinFacet m).nd = m.nd ∧ (l.foldl joinFacet m).nf = m.nf ∧
    (l.foldl joinFacet m).nv = m.nv := by
  induction l generalizing m with
  | nil => exact ⟨rfl, rfl, rfl⟩
  | cons a l ih => exact ih (joinFacet m a)

theorem level_roundtrip {M : Mesh P} (hM : M.WF) (hs : M.Sep) {h0 : Nat} (hc : M.Conn h0) {s : St P} (I : Inv M h0 s)
    (hq : s.queue = []) (geo : Geo P V)
    (hgeo : ∀ d ∈ M.darts, ∀ l, geo.insert l (geo.residual (M.pos (M.vert d)) l) = M.pos (M.vert d))
    {n : Nat} (hn : s.m.darts.card * s.m.darts.card + 2 ≤ n) {hit : Nat} (hitm : hit ∈ s.m.darts)
    (hitv : s.m.vert hit = s.m.src h0) :
    s.m.Sep ∧ ∃ faces edges, codeLevel geo n s hit (s.m.vert h0) = some (faces, edges) ∧
      (∃ gs : List Nat, faces = gs.map (faceSym geo s) ∧ (∀ g ∈ gs, g ∈ s.m.darts) ∧ ∀ d ∈ s.m.darts, ∃ g ∈ gs, s.m.face g = s.m.face d) ∧
      ∀ φ N, Iso φ s.m N → N.h.WF → N.Fresh → ∀ hit' ∈ N.darts, N.vert hit' = N.src (φ h0) →
        ∀ order : Mesh P → List Nat, (∀ m, (order m).Nodup ∧ ∀ d, d ∈ order m ↔ d ∈ m.darts) →
        ∃ N' ψ, decodeLevel geo order n N hit' (N.vert (φ h0)) faces edges = some N' ∧ Iso ψ M N' ∧ N'.h.WF ∧ N'.Fresh ∧
          N'.src (ψ h0) = N.src (φ h0) ∧ N'.vert (ψ h0) = N.vert (φ h0) := by
  classical
  obtain ⟨R, c, hRp, L, hrem⟩ := I.level
  have hK := I.wf
  have r := L.ref
  have hall := I.all hq
  have hA : ∀ d ∈ s.m.darts, s.added d = true → s.added (s.m.opp d) = true ∧
      (s.flag (s.m.face d) = .splittable ∨ s.flag (s.m.face (s.m.opp d)) = .splittable) :=
    fun d hd ha => ⟨I.addo d hd ha, (I.addc d hd ha).2⟩
  have hsep : s.m.Sep := L.sep hM hK hs hA
  refine ⟨hsep, ?_⟩
  have hcK := I.conn
  have h0K := hcK.1
  have hqK : ∀ d ∈ [h0], d ∈ s.m.h.darts := by simpa using h0K
  -- fuel
  have card1 : s.m.darts.card + 2 ≤ n := by
    have : s.m.darts.card ≤ s.m.darts.card * s.m.darts.card := Nat.le_mul_self _
    omega
  have hlen : ∀ m : Mesh P, m.darts.card = s.m.darts.card → ∀ x : Nat, [x].length + unproc m.h (fun _ => false) < n := by
    intro m hm x
    have : unproc m.h (fun _ => false) ≤ m.darts.card := Finset.card_filter_le _ _
    rw [List.length_singleton]; omega
  obtain ⟨gs, hv⟩ := visits_exists hK.h _ [h0] (fun _ => false) hqK le_rfl
  have hcf : codeFaces s.m.h n [h0] (fun _ => false) = some gs := codeFaces_of_visits hK.h n _ _ gs hqK (hlen s.m rfl h0) hv
  -- the coder's edge pass does not depend on the copy
  have idIso : Iso id s.m s.m := ⟨fun _ h => h, fun _ _ _ _ h => h, fun x h => ⟨x, h, rfl⟩, fun _ _ => rfl, fun _ _ => rfl,
    fun _ _ _ _ => Iff.rfl, fun _ _ => rfl⟩
  obtain ⟨es, syms, hce, _⟩ := edges_level idIso hK.h hK.h hcK (hsep h0 h0K) hn (flag := s.flag) (flag' := s.flag)
    (added := s.added) hall (fun _ _ => rfl) (fun d hd ha => (hA d hd ha).2) I.addo
  obtain ⟨_, _, _, _, cov0, gK0⟩ := faces_level idIso hK.h hK.h hcK card1 (faceSym geo s) hv
  refine ⟨gs.map (faceSym geo s), syms, ?_, ⟨gs, rfl, gK0, cov0⟩, ?_⟩
  · unfold codeLevel
    rw [pushHehInit_eq hK h0K hitm hitv]
    simp only [Option.bind_eq_bind, Option.bind_some]
    rw [hcf]
    simp only [Option.bind_some]
    rw [hce]
    rfl
  intro φ N i hN hfN hit' hit'm hit'v order hord
  have hNW : N.WF := i.wf hN hK hfN
  obtain ⟨flag, res, hdf, hfl0, cover, gK⟩ := faces_level i hK.h hN hcK card1 (faceSym geo s) hv
  -- labels of the copy
  have osym : ∀ d ∈ s.m.darts, Flag.ofSym (faceSym geo s d) = s.flag (s.m.face d) := by
    intro d hd
    unfold faceSym
    by_cases h : s.flag (s.m.face d) = .splittable
    · rw [if_pos h, hrem d hd h, h]; rfl
    · rw [if_neg h]
      have hu := hall d hd
      cases hf : s.flag (s.m.face d) with
      | unknown => exact absurd hf hu
      | splittable => exact absurd hf h
      | unsplittable => rfl
  have hfl : ∀ d ∈ s.m.darts, flag (N.face (φ d)) = s.flag (s.m.face d) := by
    intro d hd
    obtain ⟨g, hg, e⟩ := cover d hd
    rw [← (i.face hK.h hN (gK g hg) hd).mp e, (hfl0 g hg).1, osym g (gK g hg), e]
  obtain ⟨es2, syms2, hce2, marked, hde, hm1, hm2⟩ := edges_level i hK.h hN hcK (hsep h0 h0K) hn (flag := s.flag) (flag' := flag)
    (added := s.added) hall hfl (fun d hd ha => (hA d hd ha).2) I.addo
  rw [hce] at hce2
  simp only [Option.some.injEq, Prod.mk.injEq] at hce2
  obtain ⟨rfl, rfl⟩ := hce2
  -- inserting the vertices
  have hv' := i.visits hK.h hN (proc' := fun _ => false) hv hqK (fun _ _ => rfl)
  have hq' : ∀ d ∈ [φ h0], d ∈ N.darts := by simpa using i.mem h0 h0K
  have hres : ∀ x ∈ N.darts, flag (N.face x) = .splittable → (res (N.face x)).isSome := by
    intro x hx hs'
    obtain ⟨d, hd, rfl⟩ := i.surj x hx
    obtain ⟨g, hg, e⟩ := cover d hd
    have e2 := (i.face hK.h hN (gK g hg) hd).mp e
    rw [← e2] at hs' ⊢
    rw [hfl g (gK g hg)] at hs'
    rw [(hfl0 g hg).2]
    unfold faceSym
    rw [if_pos hs', hrem g (gK g hg) hs']; rfl
  obtain ⟨R', c', hins, r', wf', fr', _, hpos'⟩ := insertLoop_spec hN geo flag res hres n hv' hq' (hlen N i.card (φ h0))
    (InsInv.init hN hfN flag)
  -- the refined copies
  have hS : ∀ d ∈ s.m.darts, (flag (N.face (φ d)) = .splittable ∧ ((fun _ => false) (N.face (φ d)) = true ∨ ∃ g ∈ gs.map φ, N.face g = N.face (φ d))) ↔
      s.flag (s.m.face d) = .splittable := by
    intro d hd
    rw [hfl d hd]
    obtain ⟨g, hg, e⟩ := cover d hd
    exact ⟨fun h => h.1, fun h => ⟨h, Or.inr ⟨φ g, List.mem_map.mpr ⟨g, hg, rfl⟩, (i.face hK.h hN (gK g hg) hd).mp e⟩⟩⟩
  have hcM : ∀ d ∈ s.m.darts, s.flag (s.m.face d) = .splittable → ∃ x ∈ M.darts, c (s.m.face d) = M.vert x := by
    intro d hd hsd
    have hin := r.in_mem d hd hsd
    have hx : R.next d ∈ M.darts := (L.skip.mem _).mpr ⟨hin, fun ha => r.in_new d hd hsd (L.addK _ hin ha)⟩
    exact ⟨_, hx, by rw [← L.skip.vert _ hx, r.vin d hd hsd]⟩
  have hp : ∀ d ∈ s.m.darts, s.flag (s.m.face d) = .splittable → R'.pos (c' (N.face (φ d))) = R.pos (c (s.m.face d)) := by
    intro d hd hsd
    obtain ⟨g, hg, e⟩ := cover d hd
    have hgK := gK g hg
    have e2 := (i.face hK.h hN hgK hd).mp e
    have hsg : s.flag (s.m.face g) = .splittable := by rw [e]; exact hsd
    obtain ⟨v, hv1, hv2⟩ := hpos' (φ g) (List.mem_map.mpr ⟨g, hg, rfl⟩) (by rw [hfl g hgK]; exact hsg)
    rw [(hfl0 g hg).2] at hv1
    unfold faceSym at hv1
    rw [if_pos hsg, hrem g hgK hsg] at hv1
    simp only [Option.map_some, Option.some.injEq] at hv1
    obtain ⟨x, hx, hcx⟩ := hcM g hgK hsg
    rw [← e2, hv2, ← hv1, i.facePos hK.h hN hgK, hcx, hgeo x hx, hRp, ← hcx, e]
  obtain ⟨ψ, hψ, iR⟩ := r.iso r' i hK.h hN hS hp
  -- removing the edges
  have mk : ∀ x, marked x = true → x ∈ N.darts ∧
      ((flag (N.face x) = .splittable ∧ ((fun _ => false) (N.face x) = true ∨ ∃ g ∈ gs.map φ, N.face g = N.face x)) ∨
      (flag (N.face (N.opp x)) = .splittable ∧ ((fun _ => false) (N.face (N.opp x)) = true ∨ ∃ g ∈ gs.map φ, N.face g = N.face (N.opp x)))) := by
    intro x hx
    obtain ⟨d, hd, rfl, ha, _⟩ := hm1 x hx
    refine ⟨i.mem d hd, ?_⟩
    have ho := hK.opp_mem hd
    rw [← i.opp d hd]
    rcases (hA d hd ha).2 with h | h
    · exact Or.inl ((hS d hd).mpr h)
    · exact Or.inr ((hS _ ho).mpr h)
  obtain ⟨hond, homem⟩ := hord R'
  have hl : ∀ x, x ∈ (order R').filter marked ↔ marked x = true := by
    intro x
    rw [List.mem_filter, homem]
    exact ⟨fun h => h.2, fun h => ⟨r'.sub x (mk x h).1, h⟩⟩
  have skR : Skipped R' R' (fun _ => False) := ⟨fun d => by simp, fun _ _ => rfl, fun _ _ => rfl, fun _ _ => rfl, fun d _ => .stop _ id⟩
  obtain ⟨sk', wf2, face2⟩ := Skipped.joins r' hN (fun d hd => hNW.next_ne hd) ((order R').filter marked) skR wf' (by simp)
    (by
      intro a ha
      have ha' := (hl a).mp ha
      obtain ⟨d, hd, rfl, _, hno⟩ := hm1 a ha'
      refine ⟨(mk _ ha').1, id, (mk _ ha').2, ?_⟩
      rw [hl]; rw [hno]; simp)
    (hond.filter _)
  have no : ∀ x ∈ N.darts, N.opp (N.opp x) = x := hN.opp_opp
  have hA' : ∀ x ∈ R.darts, (False ∨ ψ x ∈ (order R').filter marked ∨ ψ x ∈ ((order R').filter marked).map N.opp) ↔ s.added x = true := by
    intro x hx
    rw [hl, List.mem_map, false_or]
    constructor
    · intro h
      have hk : ∃ d ∈ s.m.darts, φ d = ψ x ∧ s.added d = true := by
        rcases h with h | ⟨y, hy, h⟩
        · obtain ⟨d, hd, e, ha, _⟩ := hm1 _ h; exact ⟨d, hd, e, ha⟩
        · obtain ⟨d, hd, e, ha, _⟩ := hm1 _ ((hl y).mp hy)
          exact ⟨s.m.opp d, hK.opp_mem hd, by rw [i.opp d hd, e, h], I.addo d hd ha⟩
      obtain ⟨d, hd, e, ha⟩ := hk
      rw [← hψ d hd] at e
      rw [← iR.inj d (r.sub d hd) x hx e]; exact ha
    · intro ha
      have hk := L.addK x hx ha
      rw [hψ x hk]
      rcases hm2 x hk ha with h | h
      · exact Or.inl h
      · exact Or.inr ⟨_, (hl _).mpr h, no _ (i.mem x hk)⟩
  have isoF := L.skip.iso sk' iR (r.next_mem hK.h) (r.opp_mem hK.h) hA'
  refine ⟨_, ψ, ?_, isoF, wf2, ?_, ?_⟩
  · unfold decodeLevel
    rw [pushHehInit_eq hNW (i.mem h0 h0K) hit'm hit'v]
    simp only [Option.bind_eq_bind, Option.bind_some]
    rw [hdf]
    simp only [Option.bind_some, ne_eq, not_true_eq_false, if_false]
    rw [hde]
    simp only [Option.bind_some, ne_eq, not_true_eq_false, if_false]
    rw [show insertLoop geo flag res n N (fun _ => false) [φ h0] = _ from hins]
    rfl
  · intro x hx
    obtain ⟨c1, c2, c3⟩ := joins_counters ((order R').filter marked) R'
    rw [c1, c2, c3]
    have hxR := ((sk'.mem x).mp hx).1
    have f := fr' x hxR
    refine ⟨f.1, ?_, ?_⟩
    · obtain ⟨y, hy, e⟩ := Finset.mem_image.mp (face2 x hx)
      rw [← e]; exact (fr' y hy).2.1
    · rw [← sk'.vert x hx]; exact f.2.2
  · have h0M := hc.1
    have h0N := isoF.mem h0 h0M
    have hoM := hM.opp_mem h0M
    have e0 : ψ h0 = φ h0 := hψ h0 h0K
    have ho : s.m.opp h0 = M.opp h0 := by rw [← r.opp h0 h0K, L.skip.opp h0 h0M]
    have vK : ∀ d ∈ s.m.darts, d ∈ M.darts → ((order R').filter marked |>.foldl joinFacet R').vert (ψ d) = N.vert (φ d) := by
      intro d hd hdM
      rw [← sk'.vert _ (isoF.mem d hdM), hψ d hd, r'.vert _ (i.mem d hd)]
    refine ⟨?_, vK h0 h0K h0M⟩
    unfold Mesh.src
    rw [← isoF.opp h0 h0M, ← ho, vK _ (hK.opp_mem h0K) (by rw [ho]; exact hoM), ← i.opp h0 h0K]

end TDP.Codec
