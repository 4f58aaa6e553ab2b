import Verif.Pipeline.Props
/-! A line and a setting that meet the hypotheses of C73: the octahedron. -/
namespace TDP.Pipeline
open TDP.Codec TDP.Quant TDP.Tile TDP.Bytes

/-- Pattern 0 stands for the step 1/2048, every other for -1. -/
def exValue (n : Nat) : ℚ := if n = 0 then 1 / 2048 else -1

def exInput : Input :=
  { mesh := octahedron octPos, first := 0, v := octPos 0, vs := [octPos 1, octPos 2, octPos 3, octPos 4, octPos 5],
    hd := ⟨1, 1, 1, 0, 12⟩ }

def exSetting : Setting :=
  { lg := fun _ => 16, size := 1000, value := exValue, F := Fp.exact, convex := fun _ _ => true, enc := sampleEnv, dec := sampleEnv }

theorem exSetting_ok : exSetting.Ok := by
  refine ⟨?_, sampleEnv_ok, sampleEnv_ok⟩
  intro n _ h
  exact ⟨by change n ≤ 2 ^ 16; omega, by change 16 ≤ 25; omega⟩

/-- Three decimations; six halfedges, three vertices and two facets are left. -/
theorem exLevels : (compressLevels (headerGrid exSetting.value exInput.hd).geo exSetting.convex exSetting.enc.init exSetting.enc.hit
      (exInput.quantised.src exInput.first) (exInput.quantised.vert exInput.first) 100 100 exInput.quantised).map
      (fun r => (r.1.length, (exSetting.enc.vorder r.2).length, (exSetting.enc.gates r.2).length)) = some (3, 3, 2) := by decide +kernel

theorem exInput_ok : exInput.Ok exSetting where
  wf := (octahedron_ok octPos).1
  sep := (octahedron_ok octPos).2.1
  conn := (octahedron_ok octPos).2.2
  deg := by
    have : ∀ d ∈ (octahedron (fun _ => ())).darts, (octahedron (fun _ => ())).deg d ≤ 10 := by decide +kernel
    exact this
  pos := by
    have : ∀ d ∈ Finset.range 24, octVert.getD d 0 < 6 := by decide
    intro d hd
    have h := this d hd
    change octPos (octVert.getD d 0) ∈ _
    rcases (by omega : octVert.getD d 0 = 0 ∨ octVert.getD d 0 = 1 ∨ octVert.getD d 0 = 2 ∨ octVert.getD d 0 = 3 ∨
      octVert.getD d 0 = 4 ∨ octVert.getD d 0 = 5) with e | e | e | e | e | e <;> rw [e] <;> simp [exInput]
  range := by change 0 < maxRange (bbMin _ _) (bbMax _ _); rw [exInput, octBox.1, octBox.2]; norm_num [maxRange]
  bb := by simp only [exInput]; rw [octBox.1]; exact ⟨rfl, rfl, rfl⟩
  step := by simp only [exInput]; rw [octBox.1, octBox.2]; norm_num [quantStep, maxRange, exSetting, exValue]
  floats := by decide
  bits := by decide
  fits := by
    rintro L B ⟨N, hN⟩
    have h := exLevels
    obtain ⟨x, hx⟩ : ∃ x, compressLevels (headerGrid exSetting.value exInput.hd).geo exSetting.convex exSetting.enc.init exSetting.enc.hit
      (exInput.quantised.src exInput.first) (exInput.quantised.vert exInput.first) 100 100 exInput.quantised = some x := by
      cases hc : compressLevels (headerGrid exSetting.value exInput.hd).geo exSetting.convex exSetting.enc.init exSetting.enc.hit
        (exInput.quantised.src exInput.first) (exInput.quantised.vert exInput.first) 100 100 exInput.quantised with
      | none => rw [hc] at h; simp at h
      | some x => exact ⟨x, rfl⟩
    rw [hx] at h
    have h2 := compressLevels_mono (le_max_right N 100) 100 (le_max_right N 100) hx
    have h3 := hN (max N 100) (le_max_left _ _)
    obtain rfl := Option.some.inj (h3.symm.trans h2)
    simp only [Option.map_some, Option.some.injEq, Prod.mk.injEq] at h
    obtain ⟨h1, h2, h3⟩ := h
    rw [h1, h2, h3]
    exact ⟨by omega, by omega, by omega, by omega, by change _ ≤ 1000; omega⟩

/-- Hence two copies of it, compressed by two workers that write one voxel for each object, are found in the tile. -/
example : ∃ s : Conc.Compress.St Input Nat 2, Conc.Reach (Conc.Compress.Step (toolBytes exSetting FloatCode.fin
      (fun _ l => l = [⟨⟨fun _ => 0, fun _ => 1⟩, fun _ => 0⟩])) 0) (Conc.Compress.start 2 [exInput, exInput]) s ∧ ∀ t, (s.w t).pc = .done :=
  C73_can_finish exSetting exSetting_ok FloatCode.fin
    (fun _ l => l = [⟨⟨fun _ => 0, fun _ => 1⟩, fun _ => 0⟩]) (fun _ => ⟨_, rfl⟩) 2 (by decide) 0 [exInput, exInput]
    (by intro i hi; simp [Conc.Compress.wanted] at hi; rw [hi]; exact exInput_ok) _ .init

end TDP.Pipeline
