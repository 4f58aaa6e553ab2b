import Verif.BaseMesh.Extend
import Verif.Codec.Convex
import Verif.Pipeline.Overflow
/-!
# C98: objects from which the compressor removes nothing
(src/PPMC/mymeshComp.cpp:140-160, src/PPMC/mymeshIO.cpp:30-46, src/PPMC/mymeshDecomp.cpp:29-51)
-/
namespace TDP.Pipeline
open TDP.Codec TDP.Quant TDP.Tile TDP.Bytes TDP.BaseMesh TDP.Bits TDP.Stream

/-- An input the compressor accepts: as `Input.Ok`, but nothing is said about how many levels there are, except that they fit the field. -/
structure Input.Accepted (S : Setting) (i : Input) : Prop where
  wf : i.mesh.WF
  sep : i.mesh.Sep
  conn : i.mesh.Conn i.first
  deg : ∀ d ∈ i.mesh.darts, i.mesh.deg d ≤ 10
  pos : ∀ d ∈ i.mesh.darts, i.mesh.pos (i.mesh.vert d) ∈ i.v :: i.vs
  range : 0 < maxRange (bbMin i.v i.vs) (bbMax i.v i.vs)
  bb : S.value i.hd.bb0 = bbMin i.v i.vs 0 ∧ S.value i.hd.bb1 = bbMin i.v i.vs 1 ∧ S.value i.hd.bb2 = bbMin i.v i.vs 2
  step : S.value i.hd.step = quantStep (bbMin i.v i.vs) (bbMax i.v i.vs) i.hd.quantBits
  floats : i.hd.bb0 < 2 ^ 32 ∧ i.hd.bb1 < 2 ^ 32 ∧ i.hd.bb2 < 2 ^ 32 ∧ i.hd.step < 2 ^ 32
  bits : 1 ≤ i.hd.quantBits ∧ i.hd.quantBits ≤ 14
  fits : ∀ L B, Levels S i L B → L.length < 64 ∧ (S.enc.vorder B).length < 65536 ∧ (S.enc.gates B).length < 65536 ∧
    27 + 6 * (S.enc.vorder B).length + 32 * (S.enc.gates B).length ≤ S.size

theorem grid_of (value : Nat → ℚ) (i : Input) (hr : 0 < maxRange (bbMin i.v i.vs) (bbMax i.v i.vs))
    (hvs : ∀ d ∈ i.mesh.darts, i.mesh.pos (i.mesh.vert d) ∈ i.v :: i.vs)
    (hbb : value i.hd.bb0 = bbMin i.v i.vs 0 ∧ value i.hd.bb1 = bbMin i.v i.vs 1 ∧ value i.hd.bb2 = bbMin i.v i.vs 2)
    (hstep : value i.hd.step = quantStep (bbMin i.v i.vs) (bbMax i.v i.vs) i.hd.quantBits) :
    (headerGrid value i.hd).Ok i.hd.quantBits ∧ i.quantised.OnGrid (headerGrid value i.hd) i.hd.quantBits := by
  have hgr : headerGrid value i.hd = qgrid (initCfg i.hd.quantBits i.v i.vs) := by
    unfold headerGrid initCfg
    rw [hstep, hbb.1, hbb.2.1, hbb.2.2]
    congr 2
    funext j
    rcases (by omega : j = 0 ∨ j = 1 ∨ j = 2) with rfl | rfl | rfl <;> rfl
  have hst : 0 < quantStep (bbMin i.v i.vs) (bbMax i.v i.vs) i.hd.quantBits := div_pos hr (by positivity)
  refine ⟨by rw [hgr]; exact qgrid_ok _ _ hst _, ?_⟩
  have hbox : ∀ p ∈ i.v :: i.vs, ∀ j, bbMin i.v i.vs j ≤ p j ∧ p j ≤ bbMax i.v i.vs j := by
    intro p hp j
    rcases List.mem_cons.mp hp with rfl | hm
    · exact ⟨(bbMin_le _ i.vs j).1, (le_bbMax _ i.vs j).1⟩
    · exact ⟨(bbMin_le i.v i.vs j).2 p hm, (le_bbMax i.v i.vs j).2 p hm⟩
  intro d hd'
  obtain ⟨q, q1, q2, _⟩ := quantizeVertex_cell _ _ _ _ hr (hbox _ (hvs d hd'))
  refine ⟨vecOf q, ?_, ?_⟩
  · rw [InCell.iff, i3Of_vecOf]
    intro j
    have := q2 j
    push_cast at this
    exact this
  · rw [hgr]
    change quantizeVertex _ _ (i.mesh.pos (i.mesh.vert d)) = getPos _ (i3Of (vecOf q))
    rw [i3Of_vecOf]
    exact q1

/-- **C98, what holds and what does not.** Every accepted object is compressed. If at least one vertex could be removed, the bytes show it
again at every level (`Decodes`). If none could, then
* opening the bytes reads beyond their end (`none`) as long as vertex numbers take at most 17 bits, which they always do;
* if the bytes that happen to lie behind them are read instead (four are enough), the object that is opened is the whole object, but every
  request for more detail than it has, also for 100, fails: it starts to decode a level that was never written. -/
theorem C98_shown_again_partial (S : Setting) (hS : S.Ok) (env' : Env P3) (he' : env'.Ok) (i : Input) (hi : i.Accepted S) :
    ∃ L B data, Levels S i L B ∧
      Ends (fun n => compress S.lg S.size (headerGrid S.value) S.convex S.enc n i.hd i.quantised i.first) data ∧
      (L ≠ [] → Decodes S env' i data) ∧
      (L = [] → ((∀ k < 65536, S.lg k ≤ 17) → openObj S.lg (headerGrid S.value) data = none) ∧
        ∀ behind : List Nat, 4 ≤ behind.length → (∀ x ∈ behind, x < 256) → ∃ o ψ,
          openObj S.lg (headerGrid S.value) (data ++ behind) = some o ∧ Iso ψ i.quantised o.m ∧
          ∀ (p : Nat) n, 0 < p → p ≤ 100 → advanceObj S.F (headerGrid S.value) env' n p o = none) := by
  obtain ⟨L, B, fuel, h1, h2, h3⟩ := C57_object S.lg hS.lg S.value S.F S.convex S.enc env' hS.enc he' i.hd hi.floats hi.bits i.mesh hi.wf
    hi.sep i.first hi.conn hi.deg i.v i.vs hi.pos hi.range hi.bb hi.step
  have hL : Levels S i L B := ⟨fuel, h1⟩
  obtain ⟨f2, f3, f4, f5⟩ := hi.fits L B hL
  by_cases hne : L = []
  · subst hne
    have hB : B = i.quantised := h2
    have hBw : B.WF := by rw [hB]; exact wf_pos hi.wf _
    have hh0 : i.first ∈ B.darts := by rw [hB]; exact hi.conn.1
    obtain ⟨hg, hon⟩ := grid_of S.value i hi.range hi.pos hi.bb hi.step
    have hon' : B.OnGrid (headerGrid S.value i.hd) i.hd.quantBits := by rw [hB]; exact hon
    have hdeg : ∀ d ∈ B.darts, B.deg d ≤ 10 := by rw [hB]; exact hi.deg
    have hval := base_valid hBw hh0 hS.enc hg hon' (nb := 0) hi.floats ⟨hi.bits.1, by have := hi.bits.2; omega⟩ (by omega)
      ⟨f3, f4⟩ hdeg
    generalize hM : ({ baseOf i.hd (headerGrid S.value i.hd) S.enc (B.src i.first) (B.vert i.first) B with nbDec := 0 } : Base) = M at hval
    have hf := fits_of_valid hS.lg hval
    have hvl : M.verts.length = (S.enc.vorder B).length := by rw [← hM]; simp [baseOf]
    have hfl : M.faces.length = (S.enc.gates B).length := by rw [← hM]; simp [baseOf, faceLists]
    obtain ⟨b, e, w1, w2, w3, w4, w5, w6, w7⟩ := base_roundtrip hf (Buf.zero S.size) 0 (fun i => by simp [Buf.zero])
      (fun g _ => by simp [bitAt, Buf.zero]) (by have : (Buf.zero S.size).size = S.size := rfl
                                                 rw [hvl, hfl]; omega)
    generalize hdt : (List.range e).map b.mem = data
    have hdl : data.length = e := by rw [← hdt]; simp
    have hget : ∀ j, j < e → data.getD j 0 = b.mem j := by
      intro j hj; rw [← hdt]; simp [hj]
    have hcomp : ∀ n ≥ fuel, compress S.lg S.size (headerGrid S.value) S.convex S.enc n i.hd i.quantised i.first = some data := by
      intro n hn
      have h := h1 n hn
      unfold compress
      simp only [Option.bind_eq_bind]
      rw [show compressLevels (headerGrid S.value i.hd).geo S.convex S.enc.init S.enc.hit (i.quantised.src i.first)
        (i.quantised.vert i.first) n n i.quantised = some ([], B) from h]
      simp only [Option.bind_some, List.map_nil, List.reverse_nil, writeCompressedData, List.length_nil, writeLevels, Option.bind_eq_bind]
      rw [← hB, hM, w1]
      simp only [Option.bind_some, List.append_nil, hdt]
    have hread : ∀ behind : List Nat, 4 ≤ behind.length → (∀ x ∈ behind, x < 256) →
        readBaseMesh S.lg (toBuf (data ++ behind)) 0 = some (decoded M, e) := by
      intro behind hb hb2
      refine w7 _ ?_ ?_ ?_
      · intro j
        simp only [toBuf]
        rcases Nat.lt_or_ge j (data ++ behind).length with hj | hj
        · have hmem : (data ++ behind).getD j 0 ∈ data ++ behind := by
            simp only [List.getD_eq_getElem?_getD, List.getElem?_eq_getElem hj, Option.getD_some]
            exact List.getElem_mem hj
          rw [List.mem_append, ← hdt, List.mem_map] at hmem
          rw [← hdt]
          rcases hmem with ⟨j', _, hj'⟩ | hmem
          · rw [← hj']; exact w2 j'
          · exact hb2 _ hmem
        · simp [List.getElem?_eq_none hj]
      · simp only [toBuf, List.length_append, hdl]; omega
      · intro g _ hg'
        simp only [bitAt, toBuf]
        congr 1
        rw [← hget _ (show g / 8 < e by omega)]
        simp [List.getElem?_append_left (show g / 8 < data.length by omega)]
    refine ⟨[], B, data, hL, ⟨fuel, hcomp⟩, fun h => absurd rfl h, fun _ => ⟨?_, ?_⟩⟩
    · intro hlg
      unfold openObj
      cases hr : readBaseMesh S.lg (toBuf data) 0 with
      | none => rfl
      | some x =>
        exfalso
        obtain ⟨d, e'⟩ := x
        have hext : Ext (toBuf data) (toBuf (data ++ [0, 0, 0, 0])) := by
          refine ⟨by simp [toBuf], fun j hj => ?_⟩
          simp only [toBuf] at hj ⊢
          simp [List.getElem?_append_left hj]
        have h4 := readBaseMesh_ext hext hr
        rw [hread [0, 0, 0, 0] (by simp) (by simp)] at h4
        simp only [Option.some.injEq, Prod.mk.injEq] at h4
        obtain ⟨rfl, rfl⟩ := h4
        have hgm : (S.enc.gates B) ≠ [] := by
          intro hnil
          obtain ⟨x, hx, _⟩ := (hS.enc.gates B hBw.h).cover i.first hh0
          rw [hnil] at hx; exact absurd hx (by simp)
        have := readBaseMesh_beyond hr (by
          intro h
          have : M.faces.length = 0 := by
            have := congrArg List.length h
            simpa [decoded] using this
          rw [hfl] at this
          exact hgm (List.length_eq_zero_iff.mp this)) (hlg _ (by
            have : (decoded M).verts.length = M.verts.length := by simp [decoded, order_length M hf]
            rw [this, hvl]; exact f3))
        simp only [toBuf, hdl] at this
        omega
    · intro behind hb hb2
      have hr := hread behind hb hb2
      have hsame := decoded_same hf
      rw [← hM] at hsame
      obtain ⟨N, φ, g1, iφ, _, _, _, _⟩ := base_iso hBw hh0 hS.enc hg hon' hsame
      have hhd : (⟨(decoded M).bb0, (decoded M).bb1, (decoded M).bb2, (decoded M).step, (decoded M).quantBits⟩ : Header) = i.hd := by
        rw [← hM]; rfl
      rw [hM] at g1
      have hnb : (decoded M).nbDec = 0 := by rw [← hM]; rfl
      refine ⟨⟨N, i.hd, (decoded M).nbDec, (data ++ behind).drop e, Lod.fresh⟩, φ, ?_, by rw [← hB]; exact iφ, ?_⟩
      · unfold openObj
        simp only [hr, Option.bind_eq_bind, Option.bind_some]
        rw [hhd, g1]
        simp only [Option.bind_some]
        rw [if_neg (by omega)]
      · intro p n hp hp2
        unfold advanceObj
        have : ¬ ((Lod.fresh).pct ≥ Lod.toUnsigned (p : Int)) := by simp only [Lod.fresh, Lod.toUnsigned]; omega
        simp only [hnb]
        rw [if_neg this]
        unfold completeObj
        simp [Lod.reached]
  · have hpos : 0 < L.length := List.length_pos_iff.mpr hne
    have hok : i.Ok S := by
      refine ⟨hi.wf, hi.sep, hi.conn, hi.deg, hi.pos, hi.range, hi.bb, hi.step, hi.floats, hi.bits, ?_⟩
      intro L' B' h'
      have := Ends.unique h' hL
      obtain ⟨rfl, rfl⟩ := Prod.mk.inj this
      exact ⟨hpos, hi.fits _ _ h'⟩
    obtain ⟨L', B', data, o, e1, e2, e3, e4, e5⟩ := object S hS env' he' i hok
    obtain ⟨rfl, rfl⟩ := Prod.mk.inj (Ends.unique e1 hL)
    refine ⟨L', B', data, e1, e3, fun _ => ⟨L', B', e1, e2, o, e4, ?_⟩, fun h => absurd h hne⟩
    intro ps hps
    obtain ⟨k, o', ψ, a1, a2, a3, a4, a5, aw, a6, a7⟩ := e5 ps hps
    exact ⟨k, o', ψ, a1, a2, a3, a4, a5, aw, a6, fun h => ⟨(a7 h).1, (a7 h).2.1⟩⟩

/-- The corners of an octahedron of which one corner has been pushed in: a cup. -/
def cupPos (v : Nat) : P3 := if v = 2 then fun i => if i.val = 1 then -1 / 2 else 0 else octPos v
def cupNext : List Nat := [2, 11, 4, 21, 0, 12, 8, 5, 10, 14, 6, 23, 7, 18, 16, 13, 9, 20, 15, 3, 22, 19, 17, 1]
def cupFace : List Nat := [0, 6, 0, 7, 0, 2, 1, 2, 1, 3, 1, 6, 2, 4, 3, 4, 3, 5, 4, 7, 5, 7, 5, 6]
def cupVert : List Nat := [2, 5, 0, 2, 5, 0, 3, 5, 1, 3, 5, 1, 3, 0, 4, 3, 1, 4, 4, 0, 2, 4, 1, 2]

/-- The mesh CGAL's builder makes of the text
`OFF|6 8 0|1 0 0|-1 0 0|0 -0.5 0|0 -1 0|0 0 1|0 0 -1|3 5 2 0|3 5 3 1|3 0 3 5|3 1 3 4|3 0 4 3|3 1 4 2|3 1 2 5|3 2 4 0|`: halfedges come in pairs, in the order in which the facets first
use their edges. -/
def cup {P : Type} (p : Nat → P) : Mesh P :=
  { darts := Finset.range 24, next := fun d => cupNext.getD d 0, opp := fun d => if d % 2 = 0 then d + 1 else d - 1,
    face := fun d => cupFace.getD d 0, vert := fun d => cupVert.getD d 0, pos := p, nd := 24, nf := 8, nv := 6 }

def cupInput : Input :=
  { mesh := cup cupPos, first := 0, v := cupPos 0, vs := [cupPos 1, cupPos 2, cupPos 3, cupPos 4, cupPos 5],
    hd := ⟨1, 1, 1, 0, 12⟩ }

/-- The convexity test is the program's. -/
noncomputable def cupSetting : Setting := { exSetting with convex := convexAt sampleEnv.hit }

theorem cup_ok {P : Type} (p : Nat → P) : (cup p).WF ∧ (cup p).Sep ∧ (cup p).Conn 0 := by
  have h : (cup p).check 8 0 (List.range 24) = true := by
    have : (cup (fun _ => ())).check 8 0 (List.range 24) = true := by decide +kernel
    exact this
  obtain ⟨h1, h2, _⟩ := Mesh.check_wf h
  refine ⟨h1, h2, Mesh.conn_of (n := 8) (ds := List.range 24) ?_ (by decide) ?_⟩
  · change Finset.range 24 = _
    decide
  · have : (List.range 24).all (fun d => ((cup (fun _ => ())).reachList 8 [0]).contains d) = true := by decide +kernel
    exact this

/-- Nothing is removed. -/
theorem cupLevels : (compressLevels (headerGrid exValue cupInput.hd).geo (fun m v => decide (OneSided (m.link (m.opp (sampleEnv.hit m v)))))
      sampleEnv.init sampleEnv.hit (cupInput.quantised.src cupInput.first) (cupInput.quantised.vert cupInput.first) 100 100
      cupInput.quantised).map (fun r => (r.1.length, (sampleEnv.vorder r.2).length, (sampleEnv.gates r.2).length)) = some (0, 6, 8) := by
  decide +kernel

theorem cupBox : bbMin (cupPos 0) [cupPos 1, cupPos 2, cupPos 3, cupPos 4, cupPos 5] = (fun _ => -1) ∧
    bbMax (cupPos 0) [cupPos 1, cupPos 2, cupPos 3, cupPos 4, cupPos 5] = fun i => if i.val = 1 then 0 else 1 := by
  constructor <;> funext i <;> rcases (by omega : i = 0 ∨ i = 1 ∨ i = 2) with rfl | rfl | rfl <;>
    decide +kernel

theorem cup_levels : ∃ B, Levels cupSetting cupInput [] B ∧ ∀ L' B', Levels cupSetting cupInput L' B' → L' = [] ∧
    (sampleEnv.vorder B').length = 6 ∧ (sampleEnv.gates B').length = 8 := by
  have h := cupLevels
  rw [← convexAt_eq] at h
  simp only [Option.map_eq_some_iff, Prod.mk.injEq] at h
  obtain ⟨⟨L, B⟩, hx, hl, hv, hg⟩ := h
  obtain rfl := List.length_eq_zero_iff.mp hl
  have hL : Levels cupSetting cupInput [] B := ⟨100, fun n hn => compressLevels_mono hn 100 hn hx⟩
  refine ⟨B, hL, fun L' B' h' => ?_⟩
  obtain ⟨rfl, rfl⟩ := Prod.mk.inj (Ends.unique h' hL)
  exact ⟨rfl, hv, hg⟩

theorem cupSetting_ok : cupSetting.Ok := ⟨exSetting_ok.lg, sampleEnv_ok, sampleEnv_ok⟩

theorem cupInput_ok : cupInput.Accepted cupSetting where
  wf := (cup_ok cupPos).1
  sep := (cup_ok cupPos).2.1
  conn := (cup_ok cupPos).2.2
  deg := by
    have : ∀ d ∈ (cup (fun _ => ())).darts, (cup (fun _ => ())).deg d ≤ 10 := by decide +kernel
    exact this
  pos := by
    have : ∀ d ∈ Finset.range 24, cupVert.getD d 0 < 6 := by decide
    intro d hd
    have h := this d hd
    change cupPos (cupVert.getD d 0) ∈ _
    rcases (by omega : cupVert.getD d 0 = 0 ∨ cupVert.getD d 0 = 1 ∨ cupVert.getD d 0 = 2 ∨ cupVert.getD d 0 = 3 ∨
      cupVert.getD d 0 = 4 ∨ cupVert.getD d 0 = 5) with e | e | e | e | e | e <;> rw [e] <;> simp [cupInput]
  range := by change 0 < maxRange (bbMin _ _) (bbMax _ _); rw [cupInput, cupBox.1, cupBox.2]; norm_num [maxRange]
  bb := by simp only [cupInput]; rw [cupBox.1]; exact ⟨rfl, rfl, rfl⟩
  step := by simp only [cupInput]; rw [cupBox.1, cupBox.2]; norm_num [quantStep, maxRange, cupSetting, exSetting, exValue]
  floats := by decide
  bits := by decide
  fits := by
    intro L B h
    obtain ⟨_, _, hall⟩ := cup_levels
    obtain ⟨rfl, hv, hg⟩ := hall L B h
    change ([] : List (Mesh P3 × LevelSyms Blocks.Vec)).length < 64 ∧ (sampleEnv.vorder B).length < 65536 ∧ (sampleEnv.gates B).length < 65536 ∧
      27 + 6 * (sampleEnv.vorder B).length + 32 * (sampleEnv.gates B).length ≤ 1000
    rw [hv, hg]
    decide

/-- **C98 fails.** The cup is accepted and compressed; its bytes cannot be opened without reading beyond them, and whatever bytes are found
there, the object that is opened cannot be shown at any level of detail but 0. -/
theorem C98_counterexample : cupSetting.Ok ∧ cupInput.Accepted cupSetting ∧ ∃ data,
    Ends (fun n => compress cupSetting.lg cupSetting.size (headerGrid cupSetting.value) cupSetting.convex cupSetting.enc n cupInput.hd
      cupInput.quantised cupInput.first) data ∧
    openObj cupSetting.lg (headerGrid cupSetting.value) data = none ∧
    ∀ behind : List Nat, 4 ≤ behind.length → (∀ x ∈ behind, x < 256) → ∃ o,
      openObj cupSetting.lg (headerGrid cupSetting.value) (data ++ behind) = some o ∧
      ∀ (p : Nat) n, 0 < p → p ≤ 100 → advanceObj cupSetting.F (headerGrid cupSetting.value) cupSetting.dec n p o = none := by
  refine ⟨cupSetting_ok, cupInput_ok, ?_⟩
  obtain ⟨L, B, data, h1, h2, _, h3⟩ := C98_shown_again_partial cupSetting cupSetting_ok cupSetting.dec sampleEnv_ok cupInput cupInput_ok
  obtain ⟨_, _, hall⟩ := cup_levels
  obtain ⟨h4, h5⟩ := h3 (hall L B h1).1
  refine ⟨data, h2, h4 (fun k _ => by change 16 ≤ 17; omega), fun behind b1 b2 => ?_⟩
  obtain ⟨o, _, o1, _, o2⟩ := h5 behind b1 b2
  exact ⟨o, o1, o2⟩

/-- The other half of `C98_shown_again_partial` applies to the octahedron. -/
example : exInput.Accepted exSetting ∧ ∃ L B, Levels exSetting exInput L B ∧ L ≠ [] := by
  have h := exInput_ok
  refine ⟨⟨h.wf, h.sep, h.conn, h.deg, h.pos, h.range, h.bb, h.step, h.floats, h.bits, fun L B hL => (h.fits L B hL).2⟩, ?_⟩
  obtain ⟨L, B, _, _, e1, _⟩ := object exSetting exSetting_ok exSetting.dec exSetting_ok.dec exInput h
  exact ⟨L, B, e1, List.length_pos_iff.mp (h.fits L B e1).1⟩

end TDP.Pipeline
