import Verif.Pipeline.Model
import Verif.Pipeline.Mono
/-! # C73: compress a file of objects, open it as a tile, decode -/
namespace TDP.Pipeline
open TDP.Codec TDP.Quant TDP.Tile TDP.Bytes TDP.Conc TDP.Conc.Compress

theorem Ends.unique {X : Type} {f : Nat → Option X} {x y : X} (hx : Ends f x) (hy : Ends f y) : x = y := by
  obtain ⟨a, ha⟩ := hx
  obtain ⟨b, hb⟩ := hy
  exact Option.some.inj ((ha (max a b) (le_max_left _ _)).symm.trans (hb (max a b) (le_max_right _ _)))

/-! ### Specification -/

/-- The levels and the base mesh the compressor makes of an input. -/
def Levels (S : Setting) (i : Input) (L : List (Mesh P3 × LevelSyms Blocks.Vec)) (B : Mesh P3) : Prop :=
  Ends (fun n => compressLevels (headerGrid S.value i.hd).geo S.convex S.enc.init S.enc.hit
    (i.quantised.src i.first) (i.quantised.vert i.first) n n i.quantised) (L, B)

/-- An input the codec promises to handle: a closed connected mesh with facets of at most 10 corners, not all vertices in one point, the
header computed from them, and sizes that fit the fields of the format and the buffer. -/
structure Input.Ok (S : Setting) (i : Input) : Prop where
  wf : i.mesh.WF
  sep : i.mesh.Sep
  conn : i.mesh.Conn i.first
  deg : ∀ d ∈ i.mesh.darts, i.mesh.deg d ≤ 10
  pos : ∀ d ∈ i.mesh.darts, i.mesh.pos (i.mesh.vert d) ∈ i.v :: i.vs
  range : 0 < maxRange (bbMin i.v i.vs) (bbMax i.v i.vs)
  bb : S.value i.hd.bb0 = bbMin i.v i.vs 0 ∧ S.value i.hd.bb1 = bbMin i.v i.vs 1 ∧ S.value i.hd.bb2 = bbMin i.v i.vs 2
  step : S.value i.hd.step = quantStep (bbMin i.v i.vs) (bbMax i.v i.vs) i.hd.quantBits
  floats : i.hd.bb0 < 2 ^ 32 ∧ i.hd.bb1 < 2 ^ 32 ∧ i.hd.bb2 < 2 ^ 32 ∧ i.hd.step < 2 ^ 32
  bits : 1 ≤ i.hd.quantBits ∧ i.hd.quantBits ≤ 14
  fits : ∀ L B, Levels S i L B → 0 < L.length ∧ L.length < 64 ∧ (S.enc.vorder B).length < 65536 ∧ (S.enc.gates B).length < 65536 ∧
    27 + 6 * (S.enc.vorder B).length + 32 * (S.enc.gates B).length ≤ S.size

/-- What the logarithm and CGAL's containers promise. -/
structure Setting.Ok (S : Setting) : Prop where
  lg : BaseMesh.LogOk S.lg
  enc : S.enc.Ok
  dec : S.dec.Ok

/-- The bytes `data` show the input `i` to whoever decodes them with containers `env'`: they can be opened, and after any history of
requests the object shows the mesh of the level that the largest request asks for (`Lod.IsLevel`), vertices at most half a
quantisation step per axis from those of the input; after a request for 100 the whole input. -/
def Decodes (S : Setting) (env' : Env P3) (i : Input) (data : List Nat) : Prop :=
  ∃ L B, Levels S i L B ∧ lodMesh L B 0 = i.quantised ∧ ∃ o, openObj S.lg (headerGrid S.value) data = some o ∧
    ∀ ps : List Nat, (∀ p ∈ ps, p ≤ 100) → ∃ k o' ψ, Ends (fun n => runObj S.F (headerGrid S.value) env' n (ps.map (↑)) o) o' ∧
      k ≤ L.length ∧ Lod.IsLevel S.F L.length (ps.foldl max 0) k ∧
      (lodMesh L B (L.length - k)).WF ∧ Iso ψ (lodMesh L B (L.length - k)) o'.m ∧ o'.m.h.WF ∧
      (∀ d ∈ (lodMesh L B (L.length - k)).darts, ∀ x,
        |o'.m.pos (o'.m.vert (ψ d)) x - i.mesh.pos ((lodMesh L B (L.length - k)).vert d) x| ≤
          maxRange (bbMin i.v i.vs) (bbMax i.v i.vs) / 2 ^ i.hd.quantBits / 2) ∧
      (100 ∈ ps → k = L.length ∧ Iso ψ i.quantised o'.m)

/-! ### One object -/

variable {α : Type} [LinearOrder α] [BoundedOrder α]

/-- What C57 says, for a bound on loops that is large enough. -/
theorem object (S : Setting) (hS : S.Ok) (env' : Env P3) (he' : env'.Ok) (i : Input) (hi : i.Ok S) :
    ∃ L B data o, Levels S i L B ∧ lodMesh L B 0 = i.quantised ∧
      Ends (fun n => compress S.lg S.size (headerGrid S.value) S.convex S.enc n i.hd i.quantised i.first) data ∧
      openObj S.lg (headerGrid S.value) data = some o ∧
      ∀ ps : List Nat, (∀ p ∈ ps, p ≤ 100) → ∃ k o' ψ, Ends (fun n => runObj S.F (headerGrid S.value) env' n (ps.map (↑)) o) o' ∧
        k ≤ L.length ∧ Lod.IsLevel S.F L.length (ps.foldl max 0) k ∧
        (lodMesh L B (L.length - k)).WF ∧ Iso ψ (lodMesh L B (L.length - k)) o'.m ∧ o'.m.h.WF ∧
        (∀ d ∈ (lodMesh L B (L.length - k)).darts, ∀ x,
          |o'.m.pos (o'.m.vert (ψ d)) x - i.mesh.pos ((lodMesh L B (L.length - k)).vert d) x| ≤
            maxRange (bbMin i.v i.vs) (bbMax i.v i.vs) / 2 ^ i.hd.quantBits / 2) ∧
        (100 ∈ ps → k = L.length ∧ Iso ψ i.quantised o'.m ∧ o'.rest = []) := by
  obtain ⟨L, B, fuel, h1, h2, h3⟩ := C57_object S.lg hS.lg S.value S.F S.convex S.enc env' hS.enc he' i.hd hi.floats hi.bits i.mesh hi.wf
    hi.sep i.first hi.conn hi.deg i.v i.vs hi.pos hi.range hi.bb hi.step
  have hL : Levels S i L B := ⟨fuel, h1⟩
  obtain ⟨f1, f2, f3, f4, f5⟩ := hi.fits L B hL
  obtain ⟨data, o, c1, c2, c3⟩ := h3 S.size fuel le_rfl f1 f2 f3 f4 f5
  have hsame : ∀ n ≥ fuel, compress S.lg S.size (headerGrid S.value) S.convex S.enc n i.hd i.quantised i.first =
      compress S.lg S.size (headerGrid S.value) S.convex S.enc fuel i.hd i.quantised i.first := by
    intro n hn
    have a := h1 n hn
    have b := h1 fuel le_rfl
    simp only [compress, Input.quantised]
    rw [a, b]
  refine ⟨L, B, data, o, hL, h2, ⟨fuel, fun n hn => (hsame n hn).trans c1⟩, c2, ?_⟩
  intro ps hps
  obtain ⟨k, o', ψ, r, d1, d2, d3, d4, dw, d5, d6⟩ := c3 fuel le_rfl ps hps
  exact ⟨k, o', ψ, ⟨fuel, fun n hn => runObj_mono hn _ r⟩, d1, d2, d3, d4, dw, d5, d6⟩

/-- The record of a line exists, and whatever its voxels it holds the complete bytes. -/
theorem toolRecord (S : Setting) (hS : S.Ok) (vox : Mesh P3 → List (Voxel α) → Prop) (hvox : ∀ m, ∃ l, vox m l) (i : Input) (hi : i.Ok S) :
    (∃ r, ToolRecord S vox i r) ∧ ∀ r, ToolRecord S vox i r →
      (∃ m ψ, Iso ψ i.quantised m ∧ vox m r.voxels) ∧ ∀ env', env'.Ok → Decodes S env' i r.data := by
  obtain ⟨L, B, data, o, e1, e2, e3, e4, e5⟩ := object S hS S.dec hS.dec i hi
  obtain ⟨k, o', ψ, ⟨N, hN⟩, _, _, _, _, _, _, h100⟩ := e5 [100] (by simp)
  obtain ⟨_, hiso, hrest⟩ := h100 (by simp)
  have hadv : Ends (fun n => advanceObj S.F (headerGrid S.value) S.dec n 100 o) o' := by
    refine ⟨N, fun n hn => ?_⟩
    have := hN n hn
    simpa [runObj] using this
  refine ⟨?_, ?_⟩
  · obtain ⟨l, hl⟩ := hvox o'.m
    exact ⟨⟨data.take (data.length - o'.rest.length), l⟩, data, o, o', e3, e4, hadv, rfl, hl⟩
  · rintro r ⟨data2, o2, o2', g1, g2, g3, g4, g5⟩
    obtain rfl := Ends.unique g1 e3
    obtain rfl := Option.some.inj (g2.symm.trans e4)
    obtain rfl := Ends.unique g3 hadv
    refine ⟨⟨o2'.m, ψ, hiso, g5⟩, ?_⟩
    intro env' he'
    obtain ⟨L', B', data', o'', f1, f2, f3, f4, f5⟩ := object S hS env' he' i hi
    obtain rfl := Ends.unique f3 g1
    rw [hrest, List.length_nil, Nat.sub_zero, List.take_length] at g4
    rw [g4]
    refine ⟨L', B', f1, f2, o'', f4, ?_⟩
    intro ps hps
    obtain ⟨k, o', ψ, a1, a2, a3, a4, a5, aw, a6, a7⟩ := f5 ps hps
    exact ⟨k, o', ψ, a1, a2, a3, a4, a5, aw, a6, fun h => ⟨(a7 h).1, (a7 h).2.1⟩⟩

/-! ### All objects -/

theorem records_of (S : Setting) (fc : FloatCode α) (vox : Mesh P3 → List (Voxel α) → Prop) (recs : List (Input × List Nat))
    (h : ∀ e ∈ recs, toolBytes S fc vox e.1 e.2) :
    ∃ rs : List (Record α), dataFile fc rs = (recs.map Prod.snd).flatten ∧ rs.length = recs.length ∧
      ∀ j (h : j < rs.length) (h' : j < recs.length), ToolRecord S vox recs[j].1 rs[j] := by
  induction recs with
  | nil => exact ⟨[], rfl, rfl, fun j h => by simp at h⟩
  | cons e recs ih =>
    obtain ⟨rs, a1, a2, a3⟩ := ih (fun x hx => h x (List.mem_cons_of_mem _ hx))
    obtain ⟨r, b1, b2⟩ := h e List.mem_cons_self
    refine ⟨r :: rs, ?_, by simp [a2], ?_⟩
    · rw [dataFile, List.flatMap_cons, List.map_cons, List.flatten_cons, b2]
      exact congrArg _ a1
    · intro j hj hj'
      cases j with
      | zero => exact b1
      | succ j => exact a3 j (by simpa using hj) (by simpa using hj')

theorem fits_of_length (fc : FloatCode α) (rs : List (Record α)) (h : (dataFile fc rs).length < 256 ^ 8) : ∀ r ∈ rs, r.Fits := by
  induction rs with
  | nil => simp
  | cons r rs ih =>
    rw [dataFile, List.flatMap_cons, List.length_append] at h
    have hr : (putRecord fc r).length = 8 + r.data.length + (8 + 36 * r.voxels.length) := by
      simp only [putRecord, List.length_append, Bytes.put_length, putVoxels_length]; omega
    intro x hx
    rcases List.mem_cons.1 hx with rfl | hx
    · exact ⟨by omega, by omega⟩
    · exact ih (by rw [dataFile]; omega) x hx

/-- **C73.** From the input file to decoded objects. Run the compression tool on any number of lines with any number of workers (at least
one), under any schedule, and let it finish. The file it leaves can be opened as a tile. The tile has exactly one object for each line
asked for (in some order). The bytes of each object decode, in any process and after any history of requests, to the levels of detail of the
mesh on its line (`Decodes`), and its voxels are made from that mesh at full detail. Opening the tile again, now through its
metadata file, gives the same tile. -/
theorem C73_compress_open_decode (S : Setting) (hS : S.Ok) (fc : FloatCode α) (vox : Mesh P3 → List (Voxel α) → Prop) (hvox : ∀ m, ∃ l, vox m l)
    (workers : Nat) (hw : 0 < workers) (maxLines : Int) (lines : List Input) (hok : ∀ i ∈ wanted maxLines lines, i.Ok S)
    (s : St Input Nat workers) (hrun : Reach (Step (toolBytes S fc vox) maxLines) (start workers lines) s)
    (hdone : ∀ t, (s.w t).pc = .done) (hsize : s.file.length < 256 ^ 8)
    (disk : Disk) (a b : List Char) (hdt : disk (a ++ '.' :: 'd' :: 't' :: b) = some s.file)
    (hmt : disk (metaPath (a ++ '.' :: 'd' :: 't' :: b)) = none) (c : Nat) :
    ∃ (t : Tile α) (disk' : Disk) (order : List Input), openTile fc disk (a ++ '.' :: 'd' :: 't' :: b) c = some (t, disk') ∧
      order.Perm (wanted maxLines lines) ∧ t.objects.length = order.length ∧
      (∀ j (h : j < order.length) (h' : j < t.objects.length),
        t.objects[j].id = j ∧
        (∀ env', env'.Ok → Decodes S env' order[j] (retrieve s.file t.objects[j])) ∧
        (∃ m ψ, Iso ψ order[j].quantised m ∧ vox m t.objects[j].voxels) ∧
        (∀ v ∈ t.objects[j].voxels, v.box.Le t.objects[j].box)) ∧
      disk' (a ++ '.' :: 'd' :: 't' :: b) = some s.file ∧
      ∀ c', order.length ≤ effCapacity c' → openTile fc disk' (a ++ '.' :: 'd' :: 't' :: b) c' = some (t, disk') := by
  obtain ⟨recs, r1, r2, r3⟩ := C47_every_line_once hw _ maxLines lines s hrun hdone
  obtain ⟨rs, q1, q2, q3⟩ := records_of S fc vox recs r3
  rw [← r1] at q1
  have hfit := fits_of_length fc rs (by rw [q1]; exact hsize)
  obtain ⟨t, disk', o1, o2, o3, o4⟩ := C30_reopen_partial fc disk a b rs hfit (by rw [q1]; exact hsize) (by rw [q1]; exact hdt) hmt c
  obtain ⟨t2, p1, p2, p3, p4⟩ := C29_parse fc rs hfit (by rw [q1]; exact hsize)
  obtain rfl := Option.some.inj (p1.symm.trans o2)
  have hlen : (recs.map Prod.fst).length = rs.length := by rw [List.length_map, q2]
  refine ⟨t2, disk', recs.map Prod.fst, o1, r2, by rw [p3, hlen], ?_, by rw [o3, q1], ?_⟩
  · intro j h h'
    obtain ⟨x1, x2, x3, x4, _⟩ := p4 j (by omega) h'
    have hj : j < recs.length := by simpa using h
    have hrec := q3 j (by omega) hj
    have hmem : recs[j].1 ∈ wanted maxLines lines := r2.subset (List.mem_map_of_mem (List.getElem_mem hj))
    have hT := (toolRecord S hS vox hvox _ (hok _ hmem)).2 _ hrec
    rw [List.getElem_map, ← q1, x3, x2]
    refine ⟨x1, hT.2, hT.1, x4⟩
  · intro c' hc'
    obtain ⟨t', w1, _, w3⟩ := o4 c'
    rw [w1, w3 (by omega)]

/-- **C73, the run ends.** Whatever the tool has done so far on acceptable lines, it can finish: the hypotheses of the theorem above are met by some
continuation of every run. -/
theorem C73_can_finish (S : Setting) (hS : S.Ok) (fc : FloatCode α) (vox : Mesh P3 → List (Voxel α) → Prop) (hvox : ∀ m, ∃ l, vox m l)
    (workers : Nat) (hw : 0 < workers) (maxLines : Int) (lines : List Input) (hok : ∀ i ∈ wanted maxLines lines, i.Ok S)
    (s : St Input Nat workers) (hrun : Reach (Step (toolBytes S fc vox) maxLines) (start workers lines) s) :
    ∃ s', Reach (Step (toolBytes S fc vox) maxLines) s s' ∧ ∀ t, (s'.w t).pc = .done := by
  obtain ⟨s', h1, _, h2⟩ := C47_can_finish hw (toolBytes S fc vox) maxLines lines (fun i hi => by
    obtain ⟨r, hr⟩ := (toolRecord S hS vox hvox i (hok i hi)).1
    exact ⟨_, r, hr, rfl⟩) s hrun
  exact ⟨s', h1, h2⟩

end TDP.Pipeline
