import Verif.Codec.AssertsDec
/-!
# C94: no assertion of a decimation or of a refinement fails
-/
namespace TDP.Codec
open TDP.Traversal Function

variable {P V : Type}

/-- **C94, decimation.** On any closed connected surface, whatever the removability test and the first gate, a decimation
evaluated with every `assert` (a failing one ending the program, `none`) runs to its end, and computes what the build without
assertions computes: the mesh, the flags of facets and vertices, the removed positions, the count, the added edges. -/
theorem C94_decimation_asserts (convex : Mesh P → Nat → Bool) (M : Mesh P) (hM : M.WF) (first init : Nat)
    (hc : M.Conn first) (hi : init ∈ M.darts) :
    ∃ s a, conquest convex (M.src first) (M.vert first) (M.darts.card + 2) (beginConquest M init) = some s ∧
      conquestA convex (M.src first) (M.vert first) (M.darts.card + 2) (beginConquestA M init) = some a ∧
      a.st.m = s.m ∧ a.st.flag = s.flag ∧ a.st.rem = s.rem ∧ a.st.conq = s.conq ∧ a.st.queue = s.queue ∧ a.st.nrem = s.nrem ∧
      ∀ d, s.added d = true ↔ a.f2 d = .added := by
  have I0 := Inv.init hM hc hi
  have hu : (beginConquest M init).queue.length + unconq (beginConquest M init) < M.darts.card + 2 := by
    have h1 : unconq (beginConquest M init) ≤ M.darts.card := Finset.card_le_card (Finset.filter_subset _ _)
    have h2 : (beginConquest M init).queue.length = 1 := rfl
    omega
  obtain ⟨s, hcon, I, hq⟩ := I0.conquest convex _ hu
  obtain ⟨a, ha, S⟩ := I0.conquestA convex (M.darts.card + 2) (a := beginConquestA M init)
    ⟨rfl, fun d => by simp [beginConquest, beginConquestA]⟩
    ⟨by simp [beginConquest], fun d hd => by
      have : d = init := by simpa [beginConquest] using hd
      subst this
      simp [beginConquestA, Traversal.set]⟩ hcon
  exact ⟨s, a, hcon, ha, by rw [S.st]; rfl, by rw [S.st]; rfl, by rw [S.st]; rfl, by rw [S.st]; rfl, by rw [S.st]; rfl,
    by rw [S.st]; rfl, S.add⟩

/-- **C94, refinement.** Whatever the symbols read — those of a compressor or any other bytes —, a refinement that the build
without assertions finishes fails no assertion, and gives the same mesh. -/
theorem C94_refinement_asserts (geo : Geo P V) (order : Mesh P → List Nat) (ho : ∀ m, ∀ d ∈ order m, d ∈ m.darts) (n : Nat)
    (m : Mesh P) (hm : m.h.WF) (hf : m.Fresh) (hit0 v1 : Nat) (hh : hit0 ∈ m.darts) (faces : List (Option V))
    (edges : List Bool) (m' : Mesh P) (h : decodeLevel geo order n m hit0 v1 faces edges = some m') :
    decodeLevelA geo order n m hit0 v1 faces edges = some m' := by
  refine decodeLevelA_ok geo order ho n hm hf ?_ h
  have hmem : ∀ (k : Nat) (x : Nat), x ∈ m.darts → ∀ d ∈ loopFrom m.rot (m.opp hit0) k x, d ∈ m.darts := by
    intro k
    induction k with
    | zero => intro x _ d hd; simp [loopFrom] at hd
    | succ k ih =>
      intro x hx d hd
      rw [loopFrom, List.mem_cons] at hd
      rcases hd with rfl | hd
      · exact hx
      · by_cases e : m.rot x = m.opp hit0
        · rw [if_pos e] at hd; simp at hd
        · rw [if_neg e] at hd
          exact ih _ (hm.next_mem _ (hm.opp_mem _ hx)) d hd
  exact hmem _ _ (hm.opp_mem _ hh)

/-- **C94, both.** The symbols of a decimation, read back on any copy of the decimated mesh, fail no assertion and give the
mesh before. -/
theorem C94_level_asserts (convex : Mesh P → Nat → Bool) (M : Mesh P) (hM : M.WF) (hs : M.Sep) (first init : Nat)
    (hc : M.Conn first) (hi : init ∈ M.darts) (geo : Geo P V)
    (hgeo : ∀ d ∈ M.darts, ∀ l, geo.insert l (geo.residual (M.pos (M.vert d)) l) = M.pos (M.vert d)) (n0 : Nat) (s : St P)
    (h : conquest convex (M.src first) (M.vert first) n0 (beginConquest M init) = some s)
    (n : Nat) (hn : s.m.darts.card * s.m.darts.card + 2 ≤ n) (hit : Nat) (hitm : hit ∈ s.m.darts)
    (hitv : s.m.vert hit = M.src first) :
    ∃ faces edges, codeLevel geo n s hit (M.vert first) = some (faces, edges) ∧
      ∀ φ N, Iso φ s.m N → N.h.WF → N.Fresh → ∀ hit' ∈ N.darts, N.vert hit' = N.src (φ first) →
        ∀ order : Mesh P → List Nat, (∀ m, (order m).Nodup ∧ ∀ d, d ∈ order m ↔ d ∈ m.darts) →
        ∃ N' ψ, decodeLevelA geo order n N hit' (N.vert (φ first)) faces edges = some N' ∧ Iso ψ M N' := by
  obtain ⟨faces, edges, h1, h2⟩ := C55_level_roundtrip convex M hM hs first init hc hi geo hgeo n0 s h n hn hit hitm hitv
  refine ⟨faces, edges, h1, ?_⟩
  intro φ N i hN hf hit' hm hv order ho
  obtain ⟨N', ψ, a1, a2, _⟩ := h2 φ N i hN hf hit' hm hv order ho
  exact ⟨N', ψ, C94_refinement_asserts geo order (fun m d hd => ((ho m).2 d).mp hd) n N hN hf hit' _ hm faces edges N' a1, a2⟩

/-- The octahedron: two vertices are removed, and no assertion fails. -/
example : ((conquestA (fun _ _ => true) ((octahedron fun v => (v : Int)).src 0) ((octahedron fun v => (v : Int)).vert 0) 30
    (beginConquestA (octahedron fun v => (v : Int)) 0)).map (fun a => (a.st.nrem, a.st.m.darts.card))) = some (2, 8) := by
  decide +kernel

/-- The assertions are not idle: a gate twice in the queue fails that of `removeFromQueue` ... -/
example : conquestA (fun _ _ => false) 0 2 30
    { beginConquestA (octahedron fun v => (v : Int)) 0 with st := { beginConquest (octahedron fun v => (v : Int)) 0 with queue := [0, 0] } } =
      none := by
  have : ((conquestA (fun _ _ => false) 0 2 30
    { beginConquestA (octahedron fun v => (v : Int)) 0 with
      st := { beginConquest (octahedron fun v => (v : Int)) 0 with queue := [0, 0] } }).isNone) = true := by decide +kernel
  exact Option.isNone_iff_eq_none.mp this

/-- ... a facet already conquered that of `vertexCut` ... -/
example : (vertexCutA { beginConquestA (octahedron fun v => (v : Int)) 0 with
    st := { beginConquest (octahedron fun v => (v : Int)) 0 with flag := fun f => if f = 0 then .splittable else .unknown } } 2).isNone =
      true := by decide +kernel

/-- ... and a halfedge already marked that of `setAdded`. -/
example : (decodeEdgesA (octahedron fun v => (v : Int)) (fun _ => .splittable) 30 [0] (fun _ => false)
    (fun d => if d = 0 then .added else .original) [true]).isNone = true := by decide +kernel

/-- The hypotheses of the refinement's theorem: octahedron, storage order by number. -/
example (p : Nat → P) : (octahedron p).h.WF ∧ (octahedron p).Fresh ∧ (0 : Nat) ∈ (octahedron p).darts :=
  ⟨(octahedron_ok p).1.h, fun d hd => (octahedron_ok p).1.fresh d hd, show (0 : Nat) ∈ Finset.range 24 by decide⟩

end TDP.Codec
