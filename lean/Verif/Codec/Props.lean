import Verif.Codec.Session
import Verif.Codec.QGrid
import Verif.Codec.Check
/-!
# The codec's promises about a whole object (C54–C57)

Vocabulary of the statements. `Mesh.WF`: a closed surface without border whose `next`/`opposite` pointers are consistent, in
which every vertex has one fan of halfedges, no two edges join the same vertices, no edge is a loop and every facet has at
least three corners. `Mesh.Sep`: no facet touches itself along an edge. `Mesh.Conn first`: connected. `Iso ψ M N`: `ψ` is a
bijection between the halfedges of `M` and `N` that respects `next`, `opposite`, incidence to vertices and positions: the two
are the same surface, facet by facet and vertex by vertex. `lodMesh L B i`: the mesh before the `i`-th decimation (the last
one is the base mesh).
-/
namespace TDP.Codec
open TDP.Traversal TDP.Blocks TDP.BaseMesh TDP.Stream TDP.Quant Function

variable {P V : Type}

theorem Inv.sep {M : Mesh P} {h0 : Nat} {s : St P} (I : Inv M h0 s) (hM : M.WF) (hs : M.Sep) : s.m.Sep := by
  obtain ⟨R, c, _, L, _⟩ := I.level
  exact L.sep hM I.wf hs (fun d hd ha => ⟨I.addo d hd ha, (I.addc d hd ha).2⟩)

/-- **C54.** The decimation of a mesh ends (after at most as many gates as there are halfedges, plus one) without ever
following a gate whose halfedge has been erased, whatever the geometric test answers and wherever it starts. It leaves a
closed, connected surface of the same kind, on which every facet has been visited; the departure edge and all positions are
kept; the vertices are those of before but for the removed ones, which are counted exactly; if none is removed nothing has
changed; and facets do not get more than 8 corners unless they had. -/
theorem C54_decimation (convex : Mesh P → Nat → Bool) (M : Mesh P) (hM : M.WF) (hs : M.Sep) (first init : Nat)
    (hc : M.Conn first) (hi : init ∈ M.darts) :
    ∃ s, conquest convex (M.src first) (M.vert first) (M.darts.card + 2) (beginConquest M init) = some s ∧
      s.m.WF ∧ s.m.Sep ∧ s.m.Conn first ∧ (s.m.src first = M.src first ∧ s.m.vert first = M.vert first) ∧
      (∀ d ∈ s.m.darts, s.flag (s.m.face d) ≠ .unknown) ∧ s.m.pos = M.pos ∧
      s.m.darts.image s.m.vert ⊆ M.darts.image M.vert ∧
      (s.m.darts.image s.m.vert).card + s.nrem = (M.darts.image M.vert).card ∧ (s.nrem = 0 → s.m = M) ∧
      ∀ D, 8 ≤ D → (∀ d ∈ M.darts, M.deg d ≤ D) → ∀ d ∈ s.m.darts, s.m.deg d ≤ D := by
  have I0 := Inv.init hM hc hi
  have hu : (beginConquest M init).queue.length + unconq (beginConquest M init) < M.darts.card + 2 := by
    have h1 : unconq (beginConquest M init) ≤ M.darts.card := Finset.card_le_card (Finset.filter_subset _ _)
    have h2 : (beginConquest M init).queue.length = 1 := rfl
    omega
  obtain ⟨s, hcon, I, hq⟩ := I0.conquest convex _ hu
  refine ⟨s, hcon, I.wf, I.sep hM hs, I.conn, I.dep, I.all hq, I.pos, ?_, I.verts, I.same, I.degs⟩
  intro u hu
  obtain ⟨d, hd, rfl⟩ := Finset.mem_image.mp hu
  obtain ⟨e, he, h⟩ := I.vert_sub d hd
  exact Finset.mem_image.mpr ⟨e, he, h⟩

/-- Any finished conquest satisfies the invariant. -/
theorem inv_of_conquest {convex : Mesh P → Nat → Bool} {M : Mesh P} (hM : M.WF) {first init : Nat} (hc : M.Conn first)
    (hi : init ∈ M.darts) {n : Nat} {s : St P}
    (h : conquest convex (M.src first) (M.vert first) n (beginConquest M init) = some s) : Inv M first s ∧ s.queue = [] := by
  obtain ⟨s', hcon, I, hq⟩ := (Inv.init hM hc hi).conquest convex _ (Nat.lt_succ_self _)
  have h1 := conquest_mono (le_max_left n ((beginConquest M init).queue.length + unconq (beginConquest M init)).succ) h
  have h2 := conquest_mono (le_max_right n ((beginConquest M init).queue.length + unconq (beginConquest M init)).succ) hcon
  rw [h1] at h2
  rw [Option.some.inj h2]
  exact ⟨I, hq⟩

/-- **C55.** One level: the symbols written after a decimation, decoded on any copy of the decimated mesh (whatever its
numbering and storage order), give back the mesh before the decimation. `geo` need only restore the positions of `M`. -/
theorem C55_level_roundtrip (convex : Mesh P → Nat → Bool) (M : Mesh P) (hM : M.WF) (hs : M.Sep) (first init : Nat)
    (hc : M.Conn first) (hi : init ∈ M.darts) (geo : Geo P V)
    (hgeo : ∀ d ∈ M.darts, ∀ l, geo.insert l (geo.residual (M.pos (M.vert d)) l) = M.pos (M.vert d)) (n0 : Nat) (s : St P)
    (h : conquest convex (M.src first) (M.vert first) n0 (beginConquest M init) = some s)
    (n : Nat) (hn : s.m.darts.card * s.m.darts.card + 2 ≤ n) (hit : Nat) (hitm : hit ∈ s.m.darts)
    (hitv : s.m.vert hit = M.src first) :
    ∃ faces edges, codeLevel geo n s hit (M.vert first) = some (faces, edges) ∧
      ∀ φ N, Iso φ s.m N → N.h.WF → N.Fresh → ∀ hit' ∈ N.darts, N.vert hit' = N.src (φ first) →
        ∀ order : Mesh P → List Nat, (∀ m, (order m).Nodup ∧ ∀ d, d ∈ order m ↔ d ∈ m.darts) →
        ∃ N' ψ, decodeLevel geo order n N hit' (N.vert (φ first)) faces edges = some N' ∧ Iso ψ M N' ∧ N'.h.WF ∧
          N'.src (ψ first) = N.src (φ first) ∧ N'.vert (ψ first) = N.vert (φ first) := by
  obtain ⟨I, hq⟩ := inv_of_conquest hM hc hi h
  obtain ⟨_, faces, edges, h1, _, h2⟩ := level_roundtrip hM hs hc I hq geo hgeo hn hitm (by rw [I.dep.1]; exact hitv)
  rw [I.dep.2] at h1
  refine ⟨faces, edges, h1, ?_⟩
  intro φ N i hN hf hit' hm hv order ho
  obtain ⟨N', ψ, a1, a2, a3, _, a5, a6⟩ := h2 φ N i hN hf hit' hm hv order ho
  exact ⟨N', ψ, a1, a2, a3, a5, a6⟩

/-- **C56.** All levels: compression ends with a base mesh, each decimation having removed at least one vertex; the mesh of
every level is a closed connected surface of the same kind with positions of the original; and decoding the symbols of levels
`i` and coarser, on any copy of the base mesh, gives the mesh of level `i`, level 0 being the original mesh. -/
theorem C56_every_level (geo : Geo P V) (convex : Mesh P → Nat → Bool) (env env' : Env P) (he : env.Ok) (he' : env'.Ok)
    (M : Mesh P) (hM : M.WF) (hs : M.Sep) (first : Nat) (hc : M.Conn first)
    (hgeo : ∀ d ∈ M.darts, ∀ l, geo.insert l (geo.residual (M.pos (M.vert d)) l) = M.pos (M.vert d)) :
    ∃ L B fuel, (∀ n ≥ fuel, compressLevels geo convex env.init env.hit (M.src first) (M.vert first) n n M = some (L, B)) ∧
      lodMesh L B 0 = M ∧ lodMesh L B L.length = B ∧
      (∀ i ≤ L.length, (lodMesh L B i).WF ∧ (lodMesh L B i).Sep ∧ (lodMesh L B i).Conn first ∧ (lodMesh L B i).pos = M.pos) ∧
      (∀ i < L.length, (lodMesh L B (i + 1)).darts.image (lodMesh L B (i + 1)).vert ⊂
        (lodMesh L B i).darts.image (lodMesh L B i).vert) ∧
      ∀ n ≥ fuel, ∀ φ N, Iso φ B N → N.h.WF → N.Fresh → ∀ i ≤ L.length, ∃ N' ψ,
        decompressLevels geo env'.order env'.hit (N.src (φ first)) (N.vert (φ first)) n (stored L i) N = some N' ∧
        Iso ψ (lodMesh L B i) N' ∧ N'.h.WF := by
  obtain ⟨L, B, fuel, hcomp, C, hdec⟩ := all_levels geo convex env.init env.hit env'.hit env'.order he.init he.hit
    he'.hit he'.order first _ M le_rfl hM hs hc hgeo
  refine ⟨L, B, fuel, fun n hn => hcomp n hn n hn, C.first, by simp [lodMesh, List.getD_eq_getElem?_getD], fun i hi => ?_, C.chain, ?_⟩
  · obtain ⟨h1, h2, h3, h4, _⟩ := C.mid i hi
    exact ⟨h1, h2, h3, h4⟩
  · intro n hn φ N i hN hf j hj
    obtain ⟨N', ψ, a1, a2, a3, _⟩ := hdec n hn φ N i hN hf j hj
    exact ⟨N', ψ, a1, a2, a3⟩

theorem wf_pos {M : Mesh P} (hM : M.WF) (p : Nat → P) : ({ M with pos := p } : Mesh P).WF :=
  ⟨hM.h, hM.src_next, hM.one_orbit, hM.simple, hM.noloop, hM.deg3, hM.fresh⟩

/-- **C57.** From the user's mesh to the bytes and back. `M0` is the mesh as read (closed, connected, facets of at most 10
corners), `v :: vs` its vertex positions, not all equal; the header `hd` holds the bounding box corner and quantisation step
the compressor computes. Then compression produces bytes (if the number of decimations and the size of the base mesh fit their
header fields and the buffer is large enough), which any later process can open, and after any history `ps` of requests the
opened object shows the mesh of exactly the level the largest request asks for: a mesh with the connectivity of that level, in
which every vertex is at most half a quantisation step per axis away from the vertex of `M0` it stands for. After a history
containing 100 it is the connectivity of `M0` itself, and all bytes have been read (`dataOffset` is at their end). -/
theorem C57_object (lg : Nat → Nat) (hlg : LogOk lg) (value : Nat → ℚ) (F : Fp) (convex : Mesh P3 → Nat → Bool)
    (env env' : Env P3) (he : env.Ok) (he' : env'.Ok) (hd : Header)
    (hfl : hd.bb0 < 2 ^ 32 ∧ hd.bb1 < 2 ^ 32 ∧ hd.bb2 < 2 ^ 32 ∧ hd.step < 2 ^ 32)
    (hbits : 1 ≤ hd.quantBits ∧ hd.quantBits ≤ 14)
    (M0 : Mesh P3) (hM : M0.WF) (hs : M0.Sep) (first : Nat) (hc : M0.Conn first) (hdeg : ∀ d ∈ M0.darts, M0.deg d ≤ 10)
    (v : P3) (vs : List P3) (hvs : ∀ d ∈ M0.darts, M0.pos (M0.vert d) ∈ v :: vs)
    (hr : 0 < maxRange (bbMin v vs) (bbMax v vs))
    (hbb : value hd.bb0 = bbMin v vs 0 ∧ value hd.bb1 = bbMin v vs 1 ∧ value hd.bb2 = bbMin v vs 2)
    (hstep : value hd.step = quantStep (bbMin v vs) (bbMax v vs) hd.quantBits) :
    let M : Mesh P3 := { M0 with pos := fun u => quantizeVertex (initCfg hd.quantBits v vs) hd.quantBits (M0.pos u) }
    ∃ (L : List (Mesh P3 × LevelSyms Vec)) (B : Mesh P3) (fuel : Nat),
      (∀ n ≥ fuel, compressLevels (headerGrid value hd).geo convex env.init env.hit (M.src first) (M.vert first) n n M = some (L, B)) ∧
      lodMesh L B 0 = M ∧
      ∀ size n, fuel ≤ n → 0 < L.length → L.length < 64 → (env.vorder B).length < 65536 → (env.gates B).length < 65536 →
        27 + 6 * (env.vorder B).length + 32 * (env.gates B).length ≤ size →
        ∃ data o, compress lg size (headerGrid value) convex env n hd M first = some data ∧
          openObj lg (headerGrid value) data = some o ∧
          ∀ n' ≥ fuel, ∀ ps : List Nat, (∀ p ∈ ps, p ≤ 100) →
            ∃ k o' ψ, runObj F (headerGrid value) env' n' (ps.map (↑)) o = some o' ∧
              k ≤ L.length ∧ Lod.IsLevel F L.length (ps.foldl max 0) k ∧
              (lodMesh L B (L.length - k)).WF ∧ Iso ψ (lodMesh L B (L.length - k)) o'.m ∧ o'.m.h.WF ∧
              (∀ d ∈ (lodMesh L B (L.length - k)).darts, ∀ i,
                |o'.m.pos (o'.m.vert (ψ d)) i - M0.pos ((lodMesh L B (L.length - k)).vert d) i| ≤
                  maxRange (bbMin v vs) (bbMax v vs) / 2 ^ hd.quantBits / 2) ∧
              (100 ∈ ps → k = L.length ∧ Iso ψ M o'.m ∧ o'.rest = []) := by
  intro M
  have hgr : headerGrid value hd = qgrid (initCfg hd.quantBits v vs) := by
    unfold headerGrid initCfg
    rw [hstep, hbb.1, hbb.2.1, hbb.2.2]
    congr 2
    funext i
    rcases (by omega : i = 0 ∨ i = 1 ∨ i = 2) with rfl | rfl | rfl <;> rfl
  have hst : 0 < quantStep (bbMin v vs) (bbMax v vs) hd.quantBits := div_pos hr (by positivity)
  have hg : (headerGrid value hd).Ok hd.quantBits := by rw [hgr]; exact qgrid_ok _ _ hst _
  have hbox : ∀ p ∈ v :: vs, ∀ i, bbMin v vs i ≤ p i ∧ p i ≤ bbMax v vs i := by
    intro p hp i
    rcases List.mem_cons.mp hp with rfl | hm
    · exact ⟨(bbMin_le p vs i).1, (le_bbMax p vs i).1⟩
    · exact ⟨(bbMin_le v vs i).2 p hm, (le_bbMax v vs i).2 p hm⟩
  have hMw : M.WF := wf_pos hM _
  have hMs : M.Sep := hs
  have hMc : M.Conn first := hc
  have hcell : ∀ d ∈ M.darts, ∃ q : I3, quantizeVertex (initCfg hd.quantBits v vs) hd.quantBits (M0.pos (M0.vert d)) =
      getPos (initCfg hd.quantBits v vs) q ∧ (∀ i, 0 ≤ q i ∧ q i < ((2 ^ hd.quantBits : ℕ) : ℤ)) ∧
      ∀ i, |getPos (initCfg hd.quantBits v vs) q i - M0.pos (M0.vert d) i| ≤ (initCfg hd.quantBits v vs).step / 2 :=
    fun d hd' => quantizeVertex_cell _ _ _ _ hr (hbox _ (hvs d hd'))
  have hon : M.OnGrid (headerGrid value hd) hd.quantBits := by
    intro d hd'
    obtain ⟨q, q1, q2, _⟩ := hcell d hd'
    refine ⟨vecOf q, ?_, ?_⟩
    · rw [InCell.iff, i3Of_vecOf]
      intro i
      have := q2 i
      push_cast at this
      exact this
    · rw [hgr]
      change quantizeVertex _ _ (M0.pos (M0.vert d)) = getPos _ (i3Of (vecOf q))
      rw [i3Of_vecOf, q1]
  obtain ⟨L, B, fuel, hcomp, C, hrest⟩ := object_roundtrip lg hlg (headerGrid value) convex env env' he he' hd hfl hbits hg M hMw
    hMs first hMc hon hdeg
  refine ⟨L, B, fuel, hcomp, C.first, ?_⟩
  intro size n hn l0 l64 hv hf hsz
  obtain ⟨data, o, hw, ho, ohd, onb, olod, hdec⟩ := hrest size n hn l0 l64 hv hf hsz
  refine ⟨data, o, hw, ho, ?_⟩
  intro n' hn' ps hps
  obtain ⟨k, hrun, hk, hlev⟩ := Lod.C13_history F L.length (by omega) ps hps
  have hall : ∀ j ≤ o.nbDec, ∃ N rest, refines (headerGrid value o.hd).geo env' n' 0 1 j o.m o.rest = some (N, rest) := by
    intro j hj
    rw [onb] at hj
    obtain ⟨N, ψ, rest, h1, _⟩ := hdec n' hn' (L.length - j) (by omega)
    rw [show L.length - (L.length - j) = j by omega] at h1
    rw [ohd]
    exact ⟨N, rest, h1⟩
  obtain ⟨o', r1, _, _, r4, _, r6⟩ := runObj_of F (headerGrid value) env' n' o hall (ps.map (↑)) o rfl rfl
    (by rw [olod]; exact Nat.zero_le _) (by rw [olod]; rfl) ⟨k, ps.foldl max 0⟩ (by rw [onb, olod]; exact hrun)
  obtain ⟨N, ψ, rest, h1, h2, h3, _, _, hend⟩ := hdec n' hn' (L.length - k) (by omega)
  rw [show L.length - (L.length - k) = k by omega] at h1
  rw [ohd, h1] at r6
  simp only [Option.some.injEq, Prod.mk.injEq] at r6
  obtain ⟨rfl, rfl⟩ := r6
  refine ⟨k, o', ψ, r1, hk, hlev, (C.mid _ (by omega)).1, h2, h3, ?_, ?_⟩
  · intro d hd' i
    rw [h2.pos d hd', (C.mid _ (by omega)).2.2.2.1]
    -- the vertex is one of the original mesh
    have hvm : ∃ e ∈ M.darts, M.vert e = (lodMesh L B (L.length - k)).vert d := by
      have hsub : ∀ j ≤ L.length, (lodMesh L B j).darts.image (lodMesh L B j).vert ⊆ M.darts.image M.vert := by
        intro j
        induction j with
        | zero => intro _; rw [C.first]
        | succ j ih => intro hj; exact (C.chain j hj).1.trans (ih (by omega))
      have := hsub (L.length - k) (by omega) (Finset.mem_image_of_mem _ hd')
      obtain ⟨e, he1, he2⟩ := Finset.mem_image.mp this
      exact ⟨e, he1, he2⟩
    obtain ⟨e, he1, he2⟩ := hvm
    rw [← he2]
    obtain ⟨q, q1, _, q3⟩ := hcell e he1
    change |quantizeVertex _ _ (M0.pos (M0.vert e)) i - M0.pos (M0.vert e) i| ≤ _
    rw [q1]
    have := q3 i
    rw [show (initCfg hd.quantBits v vs).step = maxRange (bbMin v vs) (bbMax v vs) / 2 ^ hd.quantBits by
      simp [initCfg, quantStep]] at this
    exact this
  · intro hmem
    have hF := Lod.pct_lt F L.length l0 l64
    have hmax : 100 ≤ ps.foldl max 0 := by
      have : ∀ (l : List Nat) (a : Nat), a ≤ l.foldl max a ∧ ∀ x ∈ l, x ≤ l.foldl max a := by
        intro l
        induction l with
        | nil => intro a; simp
        | cons y l ih =>
          intro a
          rw [List.foldl_cons]
          refine ⟨le_trans (le_max_left _ _) (ih (max a y)).1, ?_⟩
          intro x hx
          rcases List.mem_cons.mp hx with rfl | hx
          · exact le_trans (le_max_right _ _) (ih (max a x)).1
          · exact (ih (max a y)).2 x hx
      exact (this ps 0).2 100 hmem
    have hkl : k = L.length := by
      by_contra hne
      have h5 := Lod.pct_mono F L.length k (L.length - 1) (by omega)
      have h6 := hlev.1
      have h7 : (100 : ℚ) ≤ ((ps.foldl max 0 : ℕ) : ℚ) := by exact_mod_cast hmax
      linarith
    rw [hkl, Nat.sub_self, C.first] at h2
    exact ⟨hkl, h2, hend (by omega)⟩

/-! ### Non-vacuity: an octahedron -/

def octVert : List Nat := [0,2,4,2,1,4,1,3,4,3,0,4,2,0,5,1,2,5,3,1,5,0,3,5]
def octOpp : List Nat := [11,13,3,2,16,6,5,19,9,8,22,0,17,1,21,20,4,12,23,7,15,14,10,18]

/-- The octahedron with eight triangles; position `p v` at vertex `v`. -/
def octahedron (p : Nat → P) : Mesh P :=
  { darts := Finset.range 24, next := fun d => 3 * (d / 3) + (d % 3 + 1) % 3, opp := fun d => octOpp.getD d 0,
    face := fun d => d / 3, vert := fun d => octVert.getD d 0, pos := p, nd := 24, nf := 8, nv := 6 }

theorem octahedron_ok (p : Nat → P) : (octahedron p).WF ∧ (octahedron p).Sep ∧ (octahedron p).Conn 0 := by
  have h : (octahedron p).check 8 0 (List.range 24) = true := by
    have : (octahedron (fun _ => ())).check 8 0 (List.range 24) = true := by decide +kernel
    exact this
  obtain ⟨h1, h2, _⟩ := Mesh.check_wf h
  refine ⟨h1, h2, Mesh.conn_of (n := 8) (ds := List.range 24) ?_ (by decide) ?_⟩
  · change Finset.range 24 = _
    decide
  · have : (List.range 24).all (fun d => ((octahedron (fun _ => ())).reachList 8 [0]).contains d) = true := by decide +kernel
    exact this

/-- Its facets have three corners. -/
example (p : Nat → P) : ∀ d ∈ (octahedron p).darts, (octahedron p).deg d ≤ 10 := by
  have : ∀ d ∈ (octahedron (fun _ => ())).darts, (octahedron (fun _ => ())).deg d ≤ 10 := by decide +kernel
  exact this

/-- On the integer grid, with the sums of the positions as predictions, three decimations remove a vertex each, and the base
mesh consists of two triangles. -/
example : (compressLevels ⟨fun p (l : List Int) => p - l.sum, fun l r => r + l.sum⟩ (fun _ _ => true) sampleEnv.init sampleEnv.hit
      ((octahedron (fun v => (v : Int))).src 0) ((octahedron (fun v => (v : Int))).vert 0) 100 100 (octahedron (fun v => (v : Int)))).map
      (fun r => (r.1.map (fun x => x.1.darts.card), r.2.darts.card)) = some ([24, 16, 12], 6) := by decide +kernel

/-- The hypothesis on positions of C55 and C56 for that prediction. -/
example (p : Int) (l : List Int) : (fun (l : List Int) (r : Int) => r + l.sum) l ((fun p (l : List Int) => p - l.sum) p l) = p := by
  simp

/-- Containers as C56 and C57 assume exist. -/
example : (sampleEnv : Env P3).Ok := sampleEnv_ok

/-- The positions of a unit octahedron have a positive range; a header for them: pattern `b` stands for `-1`, `0` for the step. -/
def octPos : Nat → P3
  | 0 => fun i => if i.val = 0 then 1 else 0
  | 1 => fun i => if i.val = 0 then -1 else 0
  | 2 => fun i => if i.val = 1 then 1 else 0
  | 3 => fun i => if i.val = 1 then -1 else 0
  | 4 => fun i => if i.val = 2 then 1 else 0
  | _ => fun i => if i.val = 2 then -1 else 0

example : ∀ d ∈ (octahedron octPos).darts, (octahedron octPos).pos ((octahedron octPos).vert d) ∈
    octPos 0 :: [octPos 1, octPos 2, octPos 3, octPos 4, octPos 5] := by
  have : ∀ d ∈ Finset.range 24, octVert.getD d 0 < 6 := by decide
  intro d hd
  have h := this d hd
  change octPos (octVert.getD d 0) ∈ _
  rcases (by omega : octVert.getD d 0 = 0 ∨ octVert.getD d 0 = 1 ∨ octVert.getD d 0 = 2 ∨ octVert.getD d 0 = 3 ∨
    octVert.getD d 0 = 4 ∨ octVert.getD d 0 = 5) with e | e | e | e | e | e <;> rw [e] <;> simp

theorem octBox : bbMin (octPos 0) [octPos 1, octPos 2, octPos 3, octPos 4, octPos 5] = (fun _ => -1) ∧
    bbMax (octPos 0) [octPos 1, octPos 2, octPos 3, octPos 4, octPos 5] = fun _ => 1 := by
  constructor <;> funext i <;> rcases (by omega : i = 0 ∨ i = 1 ∨ i = 2) with rfl | rfl | rfl <;> norm_num [bbMin, bbMax, octPos]

example : maxRange (bbMin (octPos 0) [octPos 1, octPos 2, octPos 3, octPos 4, octPos 5])
    (bbMax (octPos 0) [octPos 1, octPos 2, octPos 3, octPos 4, octPos 5]) = 2 := by
  rw [octBox.1, octBox.2]; norm_num [maxRange]

example : quantStep (bbMin (octPos 0) [octPos 1, octPos 2, octPos 3, octPos 4, octPos 5])
    (bbMax (octPos 0) [octPos 1, octPos 2, octPos 3, octPos 4, octPos 5]) 12 = (fun n : Nat => if n = 0 then (1 / 2048 : ℚ) else -1) 0 := by
  rw [octBox.1, octBox.2]; norm_num [quantStep, maxRange]

end TDP.Codec
