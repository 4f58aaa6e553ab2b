import Verif.Codec.OneShot
import Verif.Pipeline.Examples
/-!
# C105 for what the compressor writes (src/spatial/spatial_common.cpp:149-166, src/test/decompress.cpp:37-52)
-/
namespace TDP.Pipeline
open TDP.Codec TDP.Quant

/-- Only an object with levels can be shown at 100 per cent. -/
theorem nbDec_pos {F : Fp} {grid : Header → Grid P3} {env : Env P3} {n : Nat} {o r : Obj P3} (hl : o.lod = Lod.fresh)
    (h : runObj F grid env n [100] o = some r) : 1 ≤ o.nbDec := by
  by_contra hn
  have h0 : o.nbDec = 0 := by omega
  replace h : (advanceObj F grid env n 100 o).bind (fun x => runObj F grid env n [] x) = some r := h
  unfold advanceObj at h
  have hp : ¬ o.lod.pct ≥ Lod.toUnsigned 100 := by rw [hl]; decide
  rw [if_neg hp, completeObj.eq_1] at h
  have h1 : ¬ Lod.reached F o.nbDec o.lod.curOp (Lod.toUnsigned 100) = true := by
    unfold Lod.reached; rw [if_pos h0]; simp
  have h2 : ¬ o.lod.curOp < o.nbDec := by omega
  rw [show (if Lod.reached F o.nbDec o.lod.curOp (Lod.toUnsigned 100) = true then _ else _) = _ from if_neg h1] at h
  rw [show (if o.lod.curOp < o.nbDec then _ else (none : Option (Obj P3))) = _ from if_neg h2] at h
  exact absurd h (by simp)

/-- **C105 (compressed objects).** The bytes of an acceptable mesh, decompressed in one go at `p` per cent in any process, give the level of detail
`p` asks for, every vertex at most half a quantisation step per axis from where it was; at 100 per cent the mesh itself, all bytes read. -/
theorem C105_compressed_partial (S : Setting) (hS : S.Ok) (env' : Env P3) (he' : env'.Ok) (i : Input) (hi : i.Ok S) :
    ∃ L B data, Levels S i L B ∧ lodMesh L B 0 = i.quantised ∧
      Ends (fun n => compress S.lg S.size (headerGrid S.value) S.convex S.enc n i.hd i.quantised i.first) data ∧
      ∀ p : Nat, p ≤ 100 → ∃ k o' ψ, Ends (fun n => decompressMesh S.lg S.F (headerGrid S.value) env' n p data) o' ∧
        k ≤ L.length ∧ Lod.IsLevel S.F L.length p k ∧
        (lodMesh L B (L.length - k)).WF ∧ Iso ψ (lodMesh L B (L.length - k)) o'.m ∧
        (∀ d ∈ (lodMesh L B (L.length - k)).darts, ∀ x,
          |o'.m.pos (o'.m.vert (ψ d)) x - i.mesh.pos ((lodMesh L B (L.length - k)).vert d) x| ≤
            maxRange (bbMin i.v i.vs) (bbMax i.v i.vs) / 2 ^ i.hd.quantBits / 2) ∧
        (p = 100 → k = L.length ∧ Iso ψ i.quantised o'.m ∧ o'.rest = []) := by
  obtain ⟨L, B, data, o, h1, h2, h3, h4, h5⟩ := object S hS env' he' i hi
  have hn : 1 ≤ o.nbDec := by
    obtain ⟨_, r, _, ⟨N, hN⟩, -⟩ := h5 [100] (by simp)
    exact nbDec_pos (openObj_fresh h4) (hN N le_rfl)
  refine ⟨L, B, data, h1, h2, h3, fun p hp => ?_⟩
  obtain ⟨k, o', ψ, ⟨N, hN⟩, c2, c3, c4, c5, -, c7, c8⟩ := h5 [p] (by simpa using hp)
  refine ⟨k, o', ψ, ⟨N, fun n hn' => ?_⟩, c2, by simpa using c3, c4, c5, c7, fun e => c8 (by simp [e])⟩
  dsimp only
  rw [C105_one_go_partial S.lg S.F (headerGrid S.value) env' n data o h4 hn p [p] (by omega) (by simp) (by simp)]
  exact hN n hn'

/-- The octahedron. -/
example : ∃ data, ∃ o' : Obj P3, Ends (fun n => decompressMesh exSetting.lg exSetting.F (headerGrid exSetting.value) exSetting.dec n 100 data) o' ∧
    o'.rest = [] := by
  obtain ⟨L, B, data, -, -, -, h⟩ := C105_compressed_partial exSetting exSetting_ok exSetting.dec exSetting_ok.dec exInput exInput_ok
  obtain ⟨k, o', ψ, h1, -, -, -, -, -, h8⟩ := h 100 le_rfl
  exact ⟨data, o', h1, (h8 rfl).2.2⟩

end TDP.Pipeline
